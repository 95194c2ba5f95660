import Verif.Props.PolyhedronBall
import Verif.Props.PolyhedronBasic

/- Cached answers of a `Polyhedron` (`/repo/pympc/geometry/polyhedron.py`): C20. -/
namespace Verif.Props
open Finset

/-- the queries whose answers are cached -/
inductive Query where
  | empty | bounded | radius | center

/-- the values of the queries -/
inductive Answer where
  | bool (a : Bool)
  | num (a : Option ℝ)
  | vec (a : Option (Vec ℝ))

/-- the call in the model -/
noncomputable def Query.call (L : Lib) : Query → PyM Poly Answer
  | .empty => do return .bool (← Poly.empty L)
  | .bounded => do return .bool (← Poly.bounded L)
  | .radius => do return .num (← Poly.radius L)
  | .center => do return .vec (← Poly.center L)

/-- the steps of a history -/
inductive Step where
  | add (op : AddOp)
  | ask (q : Query)
  | facets (tol : ℝ)
  | reduce

/-- the object after a step; if a call raises the caller may catch the exception and carry on -/
noncomputable def Step.after (L : Lib) : Step → Poly → Poly
  | .add op, p => (op.call p).2
  | .ask q, p => (q.call L p).2
  | .facets tol, p => (Poly.minimal_facets L tol p).2
  | .reduce, p => (Poly.remove_redundant_inequalities L p).2

/-- the object after a history -/
noncomputable def afterHistory (L : Lib) : List Step → Poly → Poly
  | [], p => p
  | s :: ss, p => afterHistory L ss (s.after L p)

/-- the same inequalities and equalities, nothing cached -/
def clean (p : Poly) : Poly := Poly.fresh p.A p.b p.C p.d

/-- the answer of a query is the one of a freshly built polyhedron -/
def AnswersAsFresh (L : Lib) (p : Poly) (q : Query) : Prop := (q.call L p).1 = (q.call L (clean p)).1

/-! ### the invariant -/

/-- the value of `bounded` without caches -/
noncomputable def boundedVal (L : Lib) (A : Mat ℝ) (b : Vec ℝ) (C : Mat ℝ) (d : Vec ℝ) : Py Bool := do
  let e ← Poly.computeEmpty L A b C d
  if e then return true
  else do
    let S ← np.vstack [A, C, C.neg]
    let Z ← Geom.nullspace_basis L S
    if 0 < Z.nc then return false
    else Poly.computeBounded L S

/-- what the caches of `p` hold are the values of the queries for `p` -/
structure Coherent (L : Lib) (p : Poly) : Prop where
  empty : ∀ e, p._empty = some e → Poly.computeEmpty L p.A p.b p.C p.d = .ok e
  bounded : ∀ e, p._bounded = some e → boundedVal L p.A p.b p.C p.d = .ok e
  radius : ∀ r, p._radius = some r → ∃ c, Poly.chebyshev L p.A p.b p.C p.d = .ok (some (r, c))
  center : ∀ c, p._center = some c → ∃ r, Poly.chebyshev L p.A p.b p.C p.d = .ok (some (r, c))

theorem coherent_none (L : Lib) {p : Poly} (h1 : p._empty = none) (h2 : p._bounded = none)
    (h3 : p._radius = none) (h4 : p._center = none) : Coherent L p :=
  ⟨fun _ h => by simp [h1] at h, fun _ h => by simp [h2] at h, fun _ h => by simp [h3] at h,
    fun _ h => by simp [h4] at h⟩

/-- the constraints of two objects are the same -/
def SameData (p q : Poly) : Prop := q.A = p.A ∧ q.b = p.b ∧ q.C = p.C ∧ q.d = p.d

theorem empty_coherent {L : Lib} {p : Poly} (h : Coherent L p) :
    (Poly.empty L p).1 = Poly.computeEmpty L p.A p.b p.C p.d ∧ Coherent L (Poly.empty L p).2 ∧
      SameData p (Poly.empty L p).2 := by
  unfold Poly.empty
  rw [PyM.bind_ok (PyM.get_apply p)]
  cases he : p._empty with
  | some e =>
    simp only [PyM.pure_apply]
    exact ⟨(h.empty e he).symm, h, rfl, rfl, rfl, rfl⟩
  | none =>
    simp only [PyM.bind_apply, PyM.lift_apply]
    cases hv : Poly.computeEmpty L p.A p.b p.C p.d with
    | error e => exact ⟨rfl, h, rfl, rfl, rfl, rfl⟩
    | ok e => exact ⟨rfl, ⟨fun e' h' => by cases h'; exact hv, h.bounded, h.radius, h.center⟩, rfl, rfl, rfl, rfl⟩

theorem bounded_coherent {L : Lib} {p : Poly} (h : Coherent L p) :
    (Poly.bounded L p).1 = boundedVal L p.A p.b p.C p.d ∧ Coherent L (Poly.bounded L p).2 ∧
      SameData p (Poly.bounded L p).2 := by
  obtain ⟨k1, k2, k3⟩ := empty_coherent h
  obtain ⟨e1, e2, e3, e4⟩ := k3
  have hval := (rfl : boundedVal L p.A p.b p.C p.d = _)
  conv at hval => rhs; unfold boundedVal
  unfold Poly.bounded
  rw [PyM.bind_ok (PyM.get_apply p)]
  cases hb : p._bounded with
  | some e =>
    simp only [PyM.pure_apply]
    exact ⟨(h.bounded e hb).symm, h, rfl, rfl, rfl, rfl⟩
  | none =>
    simp only [PyM.bind_apply]
    rw [← k1] at hval
    generalize Poly.empty L p = w at *
    obtain ⟨v, q⟩ := w
    simp only at k1 k2 e1 e2 e3 e4 hval ⊢
    cases v with
    | error e => exact ⟨hval.symm, k2, e1, e2, e3, e4⟩
    | ok e =>
      simp only [Py.ok_bind] at hval ⊢
      cases e with
      | true => exact ⟨hval.symm, k2, e1, e2, e3, e4⟩
      | false =>
        simp only [Bool.false_eq_true, if_false, PyM.bind_apply, PyM.lift_apply] at hval ⊢
        cases hS : np.vstack [p.A, p.C, p.C.neg] with
        | error e =>
          rw [hS] at hval
          exact ⟨hval.symm, k2, e1, e2, e3, e4⟩
        | ok S =>
          rw [hS] at hval
          simp only [Py.ok_bind] at hval ⊢
          cases hZ : Geom.nullspace_basis L S with
          | error e =>
            rw [hZ] at hval
            exact ⟨hval.symm, k2, e1, e2, e3, e4⟩
          | ok Z =>
          rw [hZ] at hval
          simp only [Py.ok_bind] at hval ⊢
          split_ifs at hval ⊢ with hn
          · exact ⟨hval.symm, k2, e1, e2, e3, e4⟩
          · simp only [PyM.bind_apply, PyM.lift_apply]
            cases hv : Poly.computeBounded L S with
            | error e =>
              rw [hv] at hval
              exact ⟨hval.symm, k2, e1, e2, e3, e4⟩
            | ok r =>
              rw [hv] at hval
              refine ⟨hval.symm, ⟨k2.empty, fun e' h' => ?_, k2.radius, k2.center⟩, e1, e2, e3, e4⟩
              cases h'
              show boundedVal L q.A q.b q.C q.d = _
              rw [e1, e2, e3, e4, hval]

theorem radius_coherent {L : Lib} {p : Poly} (h : Coherent L p) :
    (Poly.radius L p).1 = (Poly.chebyshev L p.A p.b p.C p.d).map (fun s => s.map (·.1)) ∧
      Coherent L (Poly.radius L p).2 ∧ SameData p (Poly.radius L p).2 := by
  cases hr : p._radius with
  | some r =>
    have : Poly.radius L p = (.ok (some r), p) := by
      unfold Poly.radius
      rw [PyM.bind_ok (PyM.get_apply p), hr]; rfl
    obtain ⟨c, hc⟩ := h.radius r hr
    rw [this, hc]
    exact ⟨rfl, h, rfl, rfl, rfl, rfl⟩
  | none =>
    rw [radius_run L hr]
    cases hv : Poly.chebyshev L p.A p.b p.C p.d with
    | error e => exact ⟨rfl, h, rfl, rfl, rfl, rfl⟩
    | ok s =>
      refine ⟨rfl, ⟨h.empty, h.bounded, fun r h' => ?_, fun c h' => ?_⟩, rfl, rfl, rfl, rfl⟩ <;>
        obtain _ | ⟨r, c⟩ := s <;> cases h'
      · exact ⟨_, hv⟩
      · exact ⟨_, hv⟩

theorem center_coherent {L : Lib} {p : Poly} (h : Coherent L p) :
    (Poly.center L p).1 = (Poly.chebyshev L p.A p.b p.C p.d).map (fun s => s.map (·.2)) ∧
      Coherent L (Poly.center L p).2 ∧ SameData p (Poly.center L p).2 := by
  cases hr : p._center with
  | some r =>
    have : Poly.center L p = (.ok (some r), p) := by
      unfold Poly.center
      rw [PyM.bind_ok (PyM.get_apply p), hr]; rfl
    obtain ⟨c, hc⟩ := h.center r hr
    rw [this, hc]
    exact ⟨rfl, h, rfl, rfl, rfl, rfl⟩
  | none =>
    rw [center_run L hr]
    cases hv : Poly.chebyshev L p.A p.b p.C p.d with
    | error e => exact ⟨rfl, h, rfl, rfl, rfl, rfl⟩
    | ok s =>
      refine ⟨rfl, ⟨h.empty, h.bounded, fun r h' => ?_, fun c h' => ?_⟩, rfl, rfl, rfl, rfl⟩ <;>
        obtain _ | ⟨r, c⟩ := s <;> cases h'
      · exact ⟨_, hv⟩
      · exact ⟨_, hv⟩

theorem coherent_clean (L : Lib) (p : Poly) : Coherent L (clean p) := coherent_none L rfl rfl rfl rfl

theorem map_bind_eq {α β : Type} (m : PyM Poly α) (f : α → β) (p : Poly) :
    ((do return f (← m) : PyM Poly β) p) = ((m p).1.map f, (m p).2) := by
  rw [PyM.bind_apply]
  generalize m p = w
  obtain ⟨v, q⟩ := w
  cases v <;> rfl

theorem query_coherent {L : Lib} {p : Poly} (h : Coherent L p) (q : Query) :
    AnswersAsFresh L p q ∧ Coherent L (q.call L p).2 ∧ SameData p (q.call L p).2 := by
  have hc := coherent_clean L p
  cases q <;> simp only [AnswersAsFresh, Query.call, map_bind_eq]
  · exact ⟨by rw [(empty_coherent h).1, (empty_coherent hc).1]; rfl, (empty_coherent h).2⟩
  · exact ⟨by rw [(bounded_coherent h).1, (bounded_coherent hc).1]; rfl, (bounded_coherent h).2⟩
  · exact ⟨by rw [(radius_coherent h).1, (radius_coherent hc).1]; rfl, (radius_coherent h).2⟩
  · exact ⟨by rw [(center_coherent h).1, (center_coherent hc).1]; rfl, (center_coherent h).2⟩

theorem minimal_facets_state (L : Lib) (tol : ℝ) (p : Poly) :
    (Poly.minimal_facets L tol p).2 = (Poly.empty L p).2 := by
  unfold Poly.minimal_facets
  rw [PyM.bind_apply]
  generalize Poly.empty L p = w
  obtain ⟨v, q⟩ := w
  cases v with
  | error e => rfl
  | ok e =>
    cases e with
    | true => rfl
    | false =>
      simp only [Bool.false_eq_true, if_false]
      rw [PyM.bind_ok (PyM.get_apply q)]
      simp only [PyM.bind_apply, PyM.lift_apply]
      cases Poly.reduced L q with
      | error e => rfl
      | ok Ef =>
        obtain ⟨E, f⟩ := Ef
        simp only [PyM.bind_apply, PyM.lift_apply]
        cases Poly.sweep L E f tol (List.range E.nr) (List.range E.nr) <;> rfl

/-- nothing is cached -/
def NoCache (p : Poly) : Prop :=
  p._empty = none ∧ p._bounded = none ∧ p._radius = none ∧ p._center = none ∧ p._vertices = none

/-- `m` leaves the object as it is, or with nothing cached -/
def Clears (m : PyM Poly Unit) : Prop := ∀ p, (m p).2 = p ∨ NoCache (m p).2

/-- `m` keeps `NoCache` -/
def KeepsClear {α : Type} (m : PyM Poly α) : Prop := ∀ p, NoCache p → NoCache (m p).2

theorem KeepsClear.bind {α β : Type} {m : PyM Poly α} {f : α → PyM Poly β} (h1 : KeepsClear m)
    (h2 : ∀ a, KeepsClear (f a)) : KeepsClear (m >>= f) := by
  intro p hp
  have := h1 p hp
  rw [PyM.bind_apply]
  generalize m p = w at *
  obtain ⟨v, q⟩ := w
  cases v with
  | error e => exact this
  | ok a => exact h2 a q this

theorem KeepsClear.lift {α : Type} (m : Py α) : KeepsClear (PyM.lift m : PyM Poly α) := fun _ h => h
theorem KeepsClear.get : KeepsClear (PyM.get : PyM Poly Poly) := fun _ h => h

theorem clears_bind {m : PyM Poly Unit} {e : Py Unit} (h : KeepsClear m) :
    Clears (PyM.lift e >>= fun _ => PyM.modify Poly.deleteAttributes >>= fun _ => m) := by
  intro p
  rw [PyM.bind_apply, PyM.lift_apply]
  cases e with
  | error e => exact .inl rfl
  | ok u =>
    right
    exact h _ ⟨rfl, rfl, rfl, rfl, rfl⟩

theorem add_inequality_clears (A : Mat ℝ) (b : NDArr ℝ) (idx : Option (List ℕ)) :
    Clears (Poly.add_inequality A b idx) := by
  refine clears_bind (KeepsClear.get.bind fun p => (KeepsClear.lift _).bind fun AS => (KeepsClear.lift _).bind fun A' =>
    KeepsClear.bind (fun _ h => h) fun _ => (KeepsClear.lift _).bind fun b' => (fun _ h => h))

theorem add_equality_clears (A : Mat ℝ) (b : NDArr ℝ) (idx : Option (List ℕ)) :
    Clears (Poly.add_equality A b idx) := by
  refine clears_bind (KeepsClear.get.bind fun p => (KeepsClear.lift _).bind fun AS => (KeepsClear.lift _).bind fun A' =>
    KeepsClear.bind (fun _ h => h) fun _ => (KeepsClear.lift _).bind fun b' => (fun _ h => h))

theorem Clears.seq {m m' : PyM Poly Unit} (h : Clears m) (h' : Clears m') : Clears (m >>= fun _ => m') := by
  intro p
  rw [PyM.bind_apply]
  have h1 := h p
  generalize m p = w at *
  obtain ⟨v, q⟩ := w
  cases v with
  | error e => exact h1
  | ok a =>
    rcases h' q with h2 | h2
    · show (m' q).2 = p ∨ NoCache (m' q).2
      rw [h2]; exact h1
    · exact .inr h2

theorem addOp_clears (op : AddOp) : Clears op.call := by
  have hl : ∀ v idx, Clears (Poly.add_lower_bound v idx) := fun v idx p => by
    rw [Poly.add_lower_bound_eq]; exact add_inequality_clears _ _ _ p
  have hu : ∀ v idx, Clears (Poly.add_upper_bound v idx) := fun v idx p => by
    rw [Poly.add_upper_bound_eq]; exact add_inequality_clears _ _ _ p
  cases op with
  | ineq A b idx => exact add_inequality_clears _ _ _
  | eq A b idx => exact add_equality_clears _ _ _
  | lower v idx => exact hl _ _
  | upper v idx => exact hu _ _
  | bounds v w idx => exact (hl v idx).seq (hu w idx)

/-- no step of the history is a redundancy removal -/
def NoReduce (ss : List Step) : Prop := ∀ s ∈ ss, s ≠ Step.reduce

theorem afterHistory_coherent {L : Lib} : ∀ (ss : List Step) (p : Poly), NoReduce ss → Coherent L p →
    Coherent L (afterHistory L ss p)
  | [], _, _, h => h
  | s :: ss, p, hs, h => by
    refine afterHistory_coherent ss _ (fun t ht => hs t (List.mem_cons_of_mem _ ht)) ?_
    cases s with
    | add op =>
      rcases addOp_clears op p with h1 | h1
      · show Coherent L (op.call p).2
        rw [h1]; exact h
      · exact coherent_none L h1.1 h1.2.1 h1.2.2.1 h1.2.2.2.1
    | ask q => exact (query_coherent h q).2.1
    | facets tol =>
      show Coherent L (Poly.minimal_facets L tol p).2
      rw [minimal_facets_state]
      exact (empty_coherent h).2.1
    | reduce => exact absurd rfl (hs _ (List.mem_cons_self ..))

/-- C20, what holds: after every history of additions, queries and `minimal_facets`, also when some of
the calls raise, every query answers (value or exception) what a freshly built polyhedron answers.
No assumption on the sizes of the matrices and nothing about the library functions is needed.
Missing with respect to C20: histories with redundancy removals, see `C20_false`; the query `empty`
is not affected by those (`C20_empty_partial`). -/
theorem C20_partial (L : Lib) (A : Mat ℝ) (b : Vec ℝ) (C : Mat ℝ) (d : Vec ℝ) (ss : List Step) (hs : NoReduce ss)
    (q : Query) : AnswersAsFresh L (afterHistory L ss (Poly.fresh A b C d)) q :=
  (query_coherent (afterHistory_coherent ss _ hs (coherent_none L rfl rfl rfl rfl)) q).1

/-- the other queries of a coherent history do not matter: a history with an addition that changes
the answers -/
example (L : Lib) (p : Poly) : AnswersAsFresh L (afterHistory L
    [.ask .radius, .ask .bounded, .add (.ineq (Mat.eye 1) (.d1 (Vec.ones 1)) none), .ask .center, .facets 1e-7]
    (interval 2)) .radius :=
  C20_partial L _ _ _ _ _ (by intro s hs; simp at hs; rcases hs with rfl | rfl | rfl | rfl | rfl <;> simp) _

/-- the answer of `radius` for `[0, a]`, described by one inequality of slope 1 that is at most `a`
and attains it -/
theorem radius_interval {L : Lib} (hL : LibSpec L) {p : Poly} (hp : p.Inv 1) (hC : p.C = Mat.zeros 0 1)
    (hd : p.d = Vec.zeros 0) (hr : p._radius = none) {a : ℝ} (ha : 0 ≤ a)
    (h0 : ∀ i < p.A.nr, p.A.e i 0 ≠ 0)
    (hmem : ∀ x : ℝ, (∀ i < p.A.nr, p.A.e i 0 * x ≤ p.b.e i) ↔ 0 ≤ x ∧ x ≤ a) :
    (Poly.radius L p).1 = .ok (some (a / 2)) := by
  obtain ⟨r, c, k1, -, -, k3, k4, k5⟩ := Poly.chebyshev_ok hL hp (.inl (by rw [hC]; rfl)) (fun i hi hv => by
    have := hv (fun _ => 1) (fun k hk => absurd hk (by simp [hC, Mat.zeros]))
    simp [Spec.rowVal, hp.1] at this
    exact absurd this (h0 i hi)) ⟨a, fun c r hr hb => by
      rw [hC, hd, ball_one hp.1 hr] at hb
      have h1 := (hmem _).1 hb.1
      have h2 := (hmem _).1 hb.2
      linarith⟩
  rw [radius_run L hr, k1]
  have hr0 : 0 ≤ r := by
    by_contra hneg
    refine k5.1 (not_le.1 hneg) (fun _ => 0) ⟨fun i hi => ?_, fun i hi => absurd hi (by simp [hC, Mat.zeros])⟩
    have := (hmem 0).2 ⟨le_rfl, ha⟩ i hi
    simpa [hp.1] using this
  have hb := k3 hr0
  rw [hC, hd, ball_one hp.1 hr0] at hb
  have h1 := (hmem _).1 hb.1
  have h2 := (hmem _).1 hb.2
  have h3 := k4 (fun _ => a / 2) (a / 2) (by linarith) (by
    rw [hC, hd, ball_one hp.1 (by linarith)]
    exact ⟨(hmem _).2 ⟨by linarith, by linarith⟩, (hmem _).2 ⟨by linarith, by linarith⟩⟩)
  have : r = a / 2 := by linarith
  rw [this]; rfl

/-- C20 is false of the code: `remove_redundant_inequalities` does not reset the caches.  After `radius`
the first inequality of `{x ≤ 1 - 5e-8, x ≤ 1, x ≥ 0}` is removed, since it cuts off less than the
tolerance, and `radius` is still the old one. -/
theorem C20_false : ∃ p : Poly, p.Inv 1 ∧ p = clean p ∧
    ∀ L, LibSpec L → ¬ AnswersAsFresh L (afterHistory L [.ask .radius, .reduce] p) .radius := by
  let p := Poly.fresh ⟨3, 1, fun i _ => if i = 2 then -1 else 1⟩ ⟨3, fun i => if i = 0 then 1 - 5e-8 else if i = 1 then 1 else 0⟩
    (Mat.zeros 0 1) (Vec.zeros 0)
  have hp : p.Inv 1 := ⟨rfl, rfl, rfl, rfl⟩
  refine ⟨p, hp, rfl, fun L hL => ?_⟩
  have heq : ∀ x, Spec.EqHold p.C p.d x := fun x i hi => absurd hi (by simp [p, Poly.fresh, Mat.zeros])
  have a0 : p.A.e 0 0 = 1 := by simp [p, Poly.fresh]
  have a1 : p.A.e 1 0 = 1 := by simp [p, Poly.fresh]
  have a2 : p.A.e 2 0 = -1 := by simp [p, Poly.fresh]
  have v0 : ∀ x, Spec.rowVal p.A 0 x = x 0 := by intro x; simp [Spec.rowVal, p, Poly.fresh]
  have v1 : ∀ x, Spec.rowVal p.A 1 x = x 0 := by intro x; simp [Spec.rowVal, p, Poly.fresh]
  have v2 : ∀ x, Spec.rowVal p.A 2 x = -x 0 := by intro x; simp [Spec.rowVal, p, Poly.fresh]
  have b0 : p.b.e 0 = 1 - 5e-8 := rfl
  have b1 : p.b.e 1 = 1 := rfl
  have b2 : p.b.e 2 = 0 := rfl
  have hnr : p.A.nr = 3 := rfl
  -- the first radius
  have hr1 : (Poly.radius L p).1 = .ok (some ((1 - 5e-8) / 2)) := by
    refine radius_interval hL hp rfl rfl rfl (by norm_num) (fun i hi => ?_) (fun x => ?_)
    · have : i < 3 := hi
      interval_cases i <;> norm_num [p, Poly.fresh]
    · constructor
      · intro h
        have h0 := h 0 (by omega)
        have h2 := h 2 (by omega)
        rw [a0, b0] at h0
        rw [a2, b2] at h2
        constructor <;> linarith
      · rintro ⟨h0, h1⟩ i hi
        have : i < 3 := hi
        have h5 : (1:ℝ) - 5e-8 ≤ 1 := by norm_num
        interval_cases i
        · rw [a0, b0]; linarith
        · rw [a1, b1]; linarith
        · rw [a2, b2]; linarith
  obtain ⟨r0, c0⟩ : ∃ c, Poly.radius L p = (.ok (some ((1 - 5e-8) / 2)),
      { p with _radius := some ((1 - 5e-8) / 2), _center := c }) := by
    rw [radius_run L rfl] at hr1 ⊢
    cases hv : Poly.chebyshev L p.A p.b p.C p.d with
    | error e => rw [hv] at hr1; simp at hr1
    | ok s =>
      rw [hv] at hr1
      have hr1 : s.map (·.1) = some ((1 - 5e-8) / 2) := Except.ok.inj hr1
      exact ⟨s.map (·.2), by simp only [hr1]⟩
  set p1 : Poly := { p with _radius := some ((1 - 5e-8) / 2), _center := r0 } with hp1
  have hp1' : p1.Inv 1 := hp
  obtain ⟨r, -, h1, h2, hr, h3, h4⟩ := redundancy_run hL hp1' (.inl (show 0 < 3 by norm_num)) (fun e h => (by cases h))
    (⟨fun _ => 0, ⟨fun i hi => by
      show Spec.rowVal p.A i _ ≤ p.b.e i
      have : i < 3 := hi
      interval_cases i
      · rw [v0, b0]; norm_num
      · rw [v1, b1]; norm_num
      · rw [v2, b2]; norm_num, heq _⟩, by norm_num⟩) (.inl rfl) (tol := 1e-7) (by norm_num)
  have m0 : 0 ∉ r := by
    intro h
    obtain ⟨x, -, -, k1, k2⟩ := h3 0 h
    have k1 : Spec.rowVal p.A 1 x ≤ p.b.e 1 := k1 1 (by show 1 < 3; omega) (by omega)
    have k2 : p.b.e 0 + 1e-7 ≤ Spec.rowVal p.A 0 x := k2
    rw [v1, b1] at k1
    rw [v0, b0] at k2
    norm_num at k2
    linarith
  have m1 : 1 ∈ r := by
    by_contra h
    have := h4 1 (by show 1 < 3; omega) h (fun _ => 5) (heq _) (fun j hj => ?_) (fun j hj hlt => ?_)
    · have this : Spec.rowVal p.A 1 (fun _ => 5) < p.b.e 1 + 1e-7 := this
      rw [v1, b1] at this
      norm_num at this
    · have hj3 : j < 3 := hr j hj
      have : j = 2 := by
        interval_cases j
        · exact absurd hj m0
        · exact absurd hj h
        · rfl
      subst this
      show Spec.rowVal p.A 2 _ ≤ p.b.e 2
      rw [v2, b2]; norm_num
    · have hj3 : j < 3 := hj
      have : j = 2 := by omega
      subst this
      show Spec.rowVal p.A 2 _ ≤ p.b.e 2
      rw [v2, b2]; norm_num
  have m2 : 2 ∈ r := by
    by_contra h
    have := h4 2 (by show 2 < 3; omega) h (fun _ => -5) (heq _) (fun j hj => ?_) (fun j hj hlt => ?_)
    · have this : Spec.rowVal p.A 2 (fun _ => -5) < p.b.e 2 + 1e-7 := this
      rw [v2, b2] at this
      norm_num at this
    · have hj3 : j < 3 := hr j hj
      have : j = 1 := by
        interval_cases j
        · exact absurd hj m0
        · rfl
        · exact absurd hj h
      subst this
      show Spec.rowVal p.A 1 _ ≤ p.b.e 1
      rw [v1, b1]; norm_num
    · have hj3 : j < 3 := hj
      omega
  have hq := h1 rfl
  have hafter : afterHistory L [.ask .radius, .reduce] p
      = { p1 with _empty := some false, A := p1.A.rows r, b := p1.b.take r } := by
    show (Poly.remove_redundant_inequalities L (Query.call L .radius p).2).2 = _
    simp only [Query.call, map_bind_eq]
    rw [c0, hq]
  rw [hafter]
  intro hans
  unfold AnswersAsFresh at hans
  simp only [Query.call, map_bind_eq] at hans
  have e1 : (Poly.radius L { p1 with _empty := some false, A := p1.A.rows r, b := p1.b.take r }).1
      = .ok (some ((1 - 5e-8) / 2)) := rfl
  rw [e1] at hans
  have hgetD := fun (x : ℝ) => forall_getD (P := fun j => p.A.e j 0 * x ≤ p.b.e j) (l := r)
  have hgetD' := forall_getD (P := fun j => p.A.e j 0 ≠ 0) (l := r)
  have e2 := radius_interval hL (p := clean { p1 with _empty := some false, A := p1.A.rows r, b := p1.b.take r })
    ⟨rfl, rfl, rfl, rfl⟩ rfl rfl rfl (a := 1) (by norm_num)
    (hgetD'.2 fun j hj => by
      have : j < 3 := hr j hj
      interval_cases j <;> norm_num [p, Poly.fresh])
    (fun x => (hgetD x).trans (by
      constructor
      · intro h
        have h1 := h 1 m1
        have h2 := h 2 m2
        rw [a1, b1] at h1
        rw [a2, b2] at h2
        constructor <;> linarith
      · rintro ⟨h0, h1⟩ j hj
        have hj3 : j < 3 := hr j hj
        interval_cases j
        · exact absurd hj m0
        · rw [a1, b1]; linarith
        · rw [a2, b2]; linarith))
  rw [e2] at hans
  simp [Except.map] at hans
  norm_num at hans

/-! ### the query `empty` and redundancy removals -/

/-- `q` has the constraints of `p` and the same cached answer of `empty` -/
def SameEmpty (p q : Poly) : Prop := SameData p q ∧ q._empty = p._empty

theorem emptyOk_same {L : Lib} {p q : Poly} (h : p.EmptyOk L) (hs : SameEmpty p q) : q.EmptyOk L := by
  obtain ⟨⟨h1, h2, h3, h4⟩, h5⟩ := hs
  intro e he
  rw [h1, h2, h3, h4]
  exact h e (h5 ▸ he)

theorem radius_same (L : Lib) (p : Poly) : SameEmpty p (Poly.radius L p).2 := by
  cases hr : p._radius with
  | some r =>
    have : Poly.radius L p = (.ok (some r), p) := by
      unfold Poly.radius
      rw [PyM.bind_ok (PyM.get_apply p), hr]; rfl
    rw [this]; exact ⟨⟨rfl, rfl, rfl, rfl⟩, rfl⟩
  | none =>
    rw [radius_run L hr]
    cases Poly.chebyshev L p.A p.b p.C p.d <;> exact ⟨⟨rfl, rfl, rfl, rfl⟩, rfl⟩

theorem center_same (L : Lib) (p : Poly) : SameEmpty p (Poly.center L p).2 := by
  cases hr : p._center with
  | some r =>
    have : Poly.center L p = (.ok (some r), p) := by
      unfold Poly.center
      rw [PyM.bind_ok (PyM.get_apply p), hr]; rfl
    rw [this]; exact ⟨⟨rfl, rfl, rfl, rfl⟩, rfl⟩
  | none =>
    rw [center_run L hr]
    cases Poly.chebyshev L p.A p.b p.C p.d <;> exact ⟨⟨rfl, rfl, rfl, rfl⟩, rfl⟩

theorem bounded_same (L : Lib) (p : Poly) :
    SameEmpty p (Poly.bounded L p).2 ∨ SameEmpty (Poly.empty L p).2 (Poly.bounded L p).2 := by
  unfold Poly.bounded
  rw [PyM.bind_ok (PyM.get_apply p)]
  cases hb : p._bounded with
  | some e => exact .inl ⟨⟨rfl, rfl, rfl, rfl⟩, rfl⟩
  | none =>
    right
    simp only [PyM.bind_apply]
    generalize Poly.empty L p = w
    obtain ⟨v, q⟩ := w
    cases v with
    | error e => exact ⟨⟨rfl, rfl, rfl, rfl⟩, rfl⟩
    | ok e =>
      cases e with
      | true => exact ⟨⟨rfl, rfl, rfl, rfl⟩, rfl⟩
      | false =>
        simp only [Bool.false_eq_true, if_false, PyM.bind_apply, PyM.lift_apply]
        cases np.vstack [p.A, p.C, p.C.neg] with
        | error e => exact ⟨⟨rfl, rfl, rfl, rfl⟩, rfl⟩
        | ok S =>
          simp only
          cases Geom.nullspace_basis L S with
          | error e => exact ⟨⟨rfl, rfl, rfl, rfl⟩, rfl⟩
          | ok Z =>
          simp only
          split_ifs
          · exact ⟨⟨rfl, rfl, rfl, rfl⟩, rfl⟩
          · simp only [PyM.bind_apply, PyM.lift_apply]
            cases Poly.computeBounded L S <;> exact ⟨⟨rfl, rfl, rfl, rfl⟩, rfl⟩

theorem empty_sameData (L : Lib) (p : Poly) : SameData p (Poly.empty L p).2 := by
  unfold Poly.empty
  rw [PyM.bind_ok (PyM.get_apply p)]
  cases he : p._empty with
  | some e => exact ⟨rfl, rfl, rfl, rfl⟩
  | none =>
    simp only [PyM.bind_apply, PyM.lift_apply]
    cases hv : Poly.computeEmpty L p.A p.b p.C p.d with
    | error e => exact ⟨rfl, rfl, rfl, rfl⟩
    | ok e => exact ⟨rfl, rfl, rfl, rfl⟩

/-- without inequalities and equalities the removal of redundant inequalities leaves none -/
theorem reduce_no_rows (L : Lib) {p : Poly} (h : ¬ p.HasRows) : ¬ (Poly.remove_redundant_inequalities L p).2.HasRows := by
  have hsame := empty_sameData L p
  unfold Poly.remove_redundant_inequalities Poly.minimal_facets
  simp only [PyM.bind_apply]
  generalize Poly.empty L p = w at *
  obtain ⟨v, q⟩ := w
  obtain ⟨e1, e2, e3, e4⟩ := hsame
  simp only at e1 e2 e3 e4
  have hq : ¬ q.HasRows := by unfold Poly.HasRows at h ⊢; rw [e1, e3]; exact h
  cases v with
  | error e => exact hq
  | ok e =>
    cases e with
    | true => exact hq
    | false =>
      have hq' := hq
      unfold Poly.HasRows at hq'
      have hr : Poly.reduced L q = .ok (q.A, q.b) := if_neg (by omega)
      have hs : Poly.sweep L q.A q.b 1e-7 (List.range q.A.nr) (List.range q.A.nr) = .ok [] := by
        rw [show q.A.nr = 0 by omega]
        rfl
      have hrow : np.rows q.A [] = .ok (q.A.rows []) := if_pos (by simp)
      have htake : np.take q.b [] = .ok (q.b.take []) := if_pos (by simp)
      simp only [Bool.false_eq_true, if_false, PyM.bind_apply, PyM.lift_apply, PyM.get_apply, hr, hs, PyM.pure_apply, PyM.modify_apply, hrow, htake]
      rintro (k | k)
      · exact absurd k (Nat.lt_irrefl 0)
      · exact hq (.inr k)

theorem sameData_rows {p q : Poly} (h : SameData p q) (hq : q.HasRows) : p.HasRows := by
  obtain ⟨h1, -, h3, -⟩ := h
  unfold Poly.HasRows at hq ⊢
  rwa [h1, h3] at hq

/-- additions apart, no step provides the first inequality or equality -/
theorem step_rows (L : Lib) {p : Poly} (s : Step) (hs : ∀ op, s ≠ .add op) (h : (s.after L p).HasRows) : p.HasRows := by
  cases s with
  | add op => exact absurd rfl (hs op)
  | ask q =>
    refine sameData_rows ?_ h
    cases q <;> simp only [Step.after, Query.call, map_bind_eq]
    · exact empty_sameData L p
    · rcases bounded_same L p with h1 | h1
      · exact h1.1
      · obtain ⟨a1, a2, a3, a4⟩ := empty_sameData L p
        obtain ⟨b1, b2, b3, b4⟩ := h1.1
        exact ⟨b1.trans a1, b2.trans a2, b3.trans a3, b4.trans a4⟩
    · exact (radius_same L p).1
    · exact (center_same L p).1
  | facets tol =>
    refine sameData_rows ?_ h
    show SameData p (Poly.minimal_facets L tol p).2
    rw [minimal_facets_state]
    exact empty_sameData L p
  | reduce =>
    by_contra h0
    exact reduce_no_rows L h0 h

theorem step_emptyOk {L : Lib} (hL : LibSpec L) {n : ℕ} {p : Poly} (hp : p.Inv n) (h : p.HasRows → p.EmptyOk L) (s : Step) :
    (s.after L p).HasRows → (s.after L p).EmptyOk L := by
  intro hafter
  by_cases hadd : ∃ op, s = .add op
  · obtain ⟨op, rfl⟩ := hadd
    rcases addOp_clears op p with h1 | h1
    · have e : (Step.add op).after L p = p := h1
      rw [e] at hafter ⊢
      exact h hafter
    · intro e he
      have : (op.call p).2._empty = none := h1.1
      rw [show (Step.add op).after L p = (op.call p).2 from rfl, this] at he
      cases he
  have hrows := step_rows L s (fun op e => hadd ⟨op, e⟩) hafter
  have h := h hrows
  obtain ⟨e, he, hrun⟩ := Poly.empty_run hL hp hrows h
  have hempty : (Poly.empty L p).2.EmptyOk L := by
    rw [hrun]
    intro e' he'
    cases he'
    exact he
  cases s with
  | add op => exact absurd ⟨op, rfl⟩ hadd
  | ask q =>
    cases q <;> simp only [Step.after, Query.call, map_bind_eq]
    · exact hempty
    · rcases bounded_same L p with h1 | h1
      · exact emptyOk_same h h1
      · exact emptyOk_same hempty h1
    · exact emptyOk_same h (radius_same L p)
    · exact emptyOk_same h (center_same L p)
  | facets tol =>
    show Poly.EmptyOk L (Poly.minimal_facets L tol p).2
    rw [minimal_facets_state]
    exact hempty
  | reduce =>
    show Poly.EmptyOk L (Poly.remove_redundant_inequalities L p).2
    by_cases hne : Spec.NearPoint n p.A p.b p.C p.d
    · by_cases heq : p.C.nr = 0 ∨ Spec.EqIndep n p.C
      · obtain ⟨r, -, h1, -, hr, -⟩ := redundancy_run hL hp hrows h hne heq (tol := 1e-7) (by norm_num)
        rw [show (Step.reduce).after L p = _ from congrArg Prod.snd (h1 rfl)] at hafter
        rw [h1 rfl]
        rintro e he
        cases he
        refine (Poly.computeEmpty_false_iff hL (n := n)
          (p := { p with _empty := some false, A := p.A.rows r, b := p.b.take r }) ⟨hp.1, rfl, hp.2.2⟩ hafter).2 ?_
        obtain ⟨x, hx, hn⟩ := hne
        exact ⟨x, (mem_rows p r x (some false)).2 ⟨hx.2, fun j hj => hx.1 j (hr j hj)⟩, hn⟩
      · rw [not_or] at heq
        rw [((C09_errors L hL n p hp h 1e-7).2.2 hne heq.1 heq.2).2]
        rintro e he
        cases he
        exact (Poly.computeEmpty_false_iff hL hp hrows).2 hne
    · rw [((C09_errors L hL n p hp h 1e-7).2.1 hrows (.inr hne)).2]
      rintro e he
      cases he
      exact (Poly.computeEmpty_true_iff hL hp hrows).2 hne

theorem afterHistory_emptyOk {L : Lib} (hL : LibSpec L) {n : ℕ} : ∀ (ss : List Step) (p : Poly),
    (∀ k, (afterHistory L (ss.take k) p).Inv n) → (p.HasRows → p.EmptyOk L) → (afterHistory L ss p).HasRows → (afterHistory L ss p).EmptyOk L
  | [], _, _, h => h
  | s :: ss, _, hs, h => afterHistory_emptyOk hL ss _ (fun k => hs (k + 1)) (step_emptyOk hL (hs 0) h s)

/-- C20 for the query `empty`: after every history of additions, queries, `minimal_facets` and
redundancy removals through objects with matrices of consistent sizes, `empty` answers what a freshly
built polyhedron answers, if an inequality or equality is left (see `C20_no_rows_false`). -/
theorem C20_empty_partial (L : Lib) (hL : LibSpec L) (n : ℕ) (A : Mat ℝ) (b : Vec ℝ) (C : Mat ℝ) (d : Vec ℝ)
    (ss : List Step) (hs : ∀ k, (afterHistory L (ss.take k) (Poly.fresh A b C d)).Inv n)
    (hrows : 0 < (afterHistory L ss (Poly.fresh A b C d)).A.nr ∨ 0 < (afterHistory L ss (Poly.fresh A b C d)).C.nr) :
    AnswersAsFresh L (afterHistory L ss (Poly.fresh A b C d)) .empty := by
  have h := afterHistory_emptyOk hL ss _ hs (fun _ e he => by cases he) hrows
  have hp := hs ss.length
  rw [List.take_length] at hp
  generalize afterHistory L ss (Poly.fresh A b C d) = p at *
  obtain ⟨e, h1, h2⟩ := Poly.empty_run hL hp hrows h
  obtain ⟨e', h1', h2'⟩ := Poly.empty_run hL (p := clean p) hp hrows (fun e he => by cases he)
  rw [show Poly.computeEmpty L (clean p).A (clean p).b (clean p).C (clean p).d = _ from h1] at h1'
  cases h1'
  unfold AnswersAsFresh
  simp only [Query.call, map_bind_eq, h2, h2']

/-- the proviso cannot be dropped: the removal of the only inequality of `{0 x ≤ 1}` caches the answer `False` of `empty`, while a freshly built
polyhedron without inequalities and equalities raises `RuntimeError` -/
theorem C20_no_rows_false (L : Lib) (hL : LibSpec L) :
    let p := Poly.fresh ⟨1, 1, fun _ _ => 0⟩ ⟨1, fun _ => 1⟩ (Mat.zeros 0 1) (Vec.zeros 0)
    p.Inv 1 ∧ (afterHistory L [.reduce] p).Inv 1 ∧ ¬ AnswersAsFresh L (afterHistory L [.reduce] p) .empty := by
  intro p
  have hp : p.Inv 1 := ⟨rfl, rfl, rfl, rfl⟩
  have hv : ∀ i (x : ℕ → ℝ), Spec.rowVal p.A i x = 0 := fun i x => by simp [Spec.rowVal, p, Poly.fresh]
  have heq : ∀ x, Spec.EqHold p.C p.d x := fun x i hi => absurd hi (by simp [p, Poly.fresh, Mat.zeros])
  obtain ⟨r, -, h1, -, hr, h3, -⟩ := redundancy_run hL hp (.inl (show 0 < 1 by norm_num)) (fun e h => by cases h)
    ⟨fun _ => 0, ⟨fun i hi => by rw [show ∑ j ∈ range p.A.nc, p.A.e i j * (fun _ => (0 : ℝ)) j = 0 from hv i _]; exact zero_le_one, heq _⟩, by norm_num⟩
    (.inl rfl) (tol := 1e-7) (by norm_num)
  obtain rfl : r = [] := by
    refine List.eq_nil_iff_forall_not_mem.2 fun i hi => ?_
    obtain ⟨x, -, -, -, k⟩ := h3 i hi
    rw [hv, show p.b.e i = 1 from rfl] at k
    norm_num at k
  have hafter : afterHistory L [.reduce] p = { p with _empty := some false, A := p.A.rows [], b := p.b.take [] } := congrArg Prod.snd (h1 rfl)
  rw [hafter]
  refine ⟨hp, ⟨rfl, rfl, rfl, rfl⟩, ?_⟩
  unfold AnswersAsFresh
  simp only [Query.call, map_bind_eq]
  have e2 := Poly.empty_no_rows hL (n := 1) (p := clean { p with _empty := some false, A := p.A.rows [], b := p.b.take [] }) ⟨rfl, rfl, rfl, rfl⟩
    (by rintro (k | k) <;> exact absurd k (Nat.lt_irrefl 0)) (fun e h => by cases h)
  have e1 : Poly.empty L { p with _empty := some false, A := p.A.rows [], b := p.b.take [] } =
      (.ok false, { p with _empty := some false, A := p.A.rows [], b := p.b.take [] }) := rfl
  rw [e1, e2]
  intro h
  cases h

/-- the sizes stay consistent in a history of queries about `[0, 2]` -/
example (L : Lib) : ∀ k, (afterHistory L (([.ask .radius, .ask .center] : List Step).take k) (interval 2)).Inv 1 := by
  have hs : ∀ (p : Poly), p.Inv 1 → ((Step.ask .radius).after L p).Inv 1 ∧ ((Step.ask .center).after L p).Inv 1 := by
    intro p hp
    simp only [Step.after, Query.call, map_bind_eq]
    obtain ⟨⟨h1, h2, h3, h4⟩, -⟩ := radius_same L p
    obtain ⟨⟨k1, k2, k3, k4⟩, -⟩ := center_same L p
    unfold Poly.Inv
    rw [h1, h2, h3, h4, k1, k2, k3, k4]
    exact ⟨hp, hp⟩
  have h0 : (interval 2).Inv 1 := ⟨rfl, rfl, rfl, rfl⟩
  intro k
  match k with
  | 0 => exact h0
  | 1 => exact (hs _ h0).1
  | k + 2 =>
    rw [List.take_of_length_le (by simp)]
    exact (hs _ (hs _ h0).1).2

end Verif.Props
