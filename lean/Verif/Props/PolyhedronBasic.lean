import Verif.Proofs.Polyhedron

/-
Properties of the constructors, additions and set operations of
`/repo/pympc/geometry/polyhedron.py` (C01 - C08, C13, C14).
`p.Mem x` says that `x` satisfies `A x ≤ b`, `C x = d` for the data stored in `p`; `p.Inv n` that the
sizes of the data agree and that there are `n` variables.
-/
namespace Verif.Props
open Finset

/-- C01: which data the constructor accepts, and the set that the object represents. -/
theorem C01 (A : Mat ℝ) (b : NDArr ℝ) (C : Option (Mat ℝ)) (d : Option (NDArr ℝ)) :
    -- it raises only `ValueError`
    (∀ e, Poly.init A b C d = .error e → e = .valueError) ∧
    -- it accepts exactly the consistent data
    ((∃ p, Poly.init A b C d = .ok p) ↔
      b.ndim = 1 ∧ b.size = A.nr ∧ ((C = none ∧ d = none) ∨
        ∃ C' d', C = some C' ∧ d = some d' ∧ d'.ndim = 1 ∧ d'.size = C'.nr)) ∧
    -- the set represented
    (∀ p, Poly.init A b C d = .ok p → ∃ v, b = .d1 v ∧ ∀ x, p.Mem x ↔
      (∀ i < A.nr, ∑ j ∈ range A.nc, A.e i j * x j ≤ v.e i) ∧
      ∀ C' w, C = some C' → d = some (.d1 w) → ∀ i < C'.nr, ∑ j ∈ range C'.nc, C'.e i j * x j = w.e i) ∧
    -- the sizes of the attributes
    ∀ p, Poly.init A b C d = .ok p → (∀ C', C = some C' → C'.nc = A.nc) → p.Inv A.nc := by
  refine ⟨fun e he => Poly.init_error he, ?_, ?_, ?_⟩
  · constructor
    · rintro ⟨p, hp⟩
      obtain ⟨v, rfl, h1, ⟨h2, h3, -⟩ | ⟨C', w, h2, h3, h4, -⟩⟩ := Poly.init_eq_ok.1 hp
      · exact ⟨rfl, h1, Or.inl ⟨h2, h3⟩⟩
      · exact ⟨rfl, h1, Or.inr ⟨C', _, h2, h3, rfl, h4⟩⟩
    · rintro ⟨h1, h2, ⟨h3, h4⟩ | ⟨C', d', h3, h4, h5, h6⟩⟩
      · cases b with
        | d2 M => simp [NDArr.ndim] at h1
        | d1 v => exact ⟨_, Poly.init_eq_ok.2 ⟨v, rfl, h2, Or.inl ⟨h3, h4, rfl⟩⟩⟩
      · cases b with
        | d2 M => simp [NDArr.ndim] at h1
        | d1 v =>
          cases d' with
          | d2 M => simp [NDArr.ndim] at h5
          | d1 w => exact ⟨_, Poly.init_eq_ok.2 ⟨v, rfl, h2, Or.inr ⟨C', w, h3, h4, h6, rfl⟩⟩⟩
  · intro p hp
    obtain ⟨v, rfl, h1, ⟨rfl, rfl, rfl⟩ | ⟨C', w, rfl, rfl, h4, rfl⟩⟩ := Poly.init_eq_ok.1 hp
    · refine ⟨v, rfl, fun x => ⟨fun h => ⟨h.1, fun C' w hC => by simp at hC⟩, fun h => ⟨h.1, ?_⟩⟩⟩
      intro i hi
      exact absurd hi (by show ¬ i < 0; omega)
    · refine ⟨v, rfl, fun x => ⟨fun h => ⟨h.1, ?_⟩, fun h => ⟨h.1, h.2 C' w rfl rfl⟩⟩⟩
      rintro C'' w' hC hw
      cases hC; cases hw
      exact h.2
  · intro p hp hC
    obtain ⟨v, rfl, h1, ⟨rfl, rfl, rfl⟩ | ⟨C', w, rfl, rfl, h4, rfl⟩⟩ := Poly.init_eq_ok.1 hp
    · exact ⟨rfl, h1, rfl, rfl⟩
    · exact ⟨rfl, h1, hC C' rfl, h4⟩

/-- accepted: one inequality and one equality in the plane; rejected: a column as right-hand side -/
example : (∃ p, Poly.init ⟨1, 2, fun _ _ => 1⟩ (.d1 ⟨1, fun _ => 1⟩) (some ⟨1, 2, fun _ _ => 2⟩)
      (some (.d1 ⟨1, fun _ => 0⟩)) = .ok p) ∧
    Poly.init ⟨1, 2, fun _ _ => 1⟩ (.d2 ⟨1, 1, fun _ _ => 1⟩) = .error .valueError :=
  ⟨⟨_, rfl⟩, rfl⟩

/-- C02: a successful addition intersects the set with the new constraint.  `idx = none` (all the
coordinates) stands for `0, …, n - 1`. -/
theorem C02 (n : ℕ) (p : Poly) (hp : p.Inv n) (A : Mat ℝ) (b : NDArr ℝ) (idx : Option (List ℕ))
    (hidx : ∀ l, idx = some l → Spec.Increasing n l) :
    -- an inequality is added exactly when the sizes agree
    ((∃ q, Poly.add_inequality A b idx p = (.ok (), q)) ↔
      b.ndim = 1 ∧ b.size = A.nr ∧ A.nc = (idx.getD (List.range n)).length) ∧
    (∀ q, Poly.add_inequality A b idx p = (.ok (), q) → q.Inv n ∧ ∃ v, b = .d1 v ∧
      ∀ x, q.Mem x ↔ p.Mem x ∧ Spec.IneqAt A v.e (idx.getD (List.range n)) x) ∧
    -- the same for equalities
    ((∃ q, Poly.add_equality A b idx p = (.ok (), q)) ↔
      b.ndim = 1 ∧ b.size = A.nr ∧ A.nc = (idx.getD (List.range n)).length) ∧
    (∀ q, Poly.add_equality A b idx p = (.ok (), q) → q.Inv n ∧ ∃ v, b = .d1 v ∧
      ∀ x, q.Mem x ↔ p.Mem x ∧ Spec.EqAt A v.e (idx.getD (List.range n)) x) := by
  rw [← Poly.sel_eq hidx]
  refine ⟨?_, ?_, ?_, ?_⟩
  · constructor
    · rintro ⟨q, hq⟩
      obtain ⟨v, rfl, h1, h2, -⟩ := (Poly.add_inequality_ok hp A b idx q).1 hq
      exact ⟨rfl, h1, h2⟩
    · rintro ⟨h1, h2, h3⟩
      cases b with
      | d2 M => simp [NDArr.ndim] at h1
      | d1 v => exact ⟨_, (Poly.add_inequality_ok hp A _ idx _).2 ⟨v, rfl, h2, h3, rfl⟩⟩
  · intro q hq
    obtain ⟨h0, v, h1, -, -, h4⟩ := Poly.add_inequality_spec hp hq
    exact ⟨h0, v, h1, h4⟩
  · constructor
    · rintro ⟨q, hq⟩
      obtain ⟨v, rfl, h1, h2, -⟩ := (Poly.add_equality_ok hp A b idx q).1 hq
      exact ⟨rfl, h1, h2⟩
    · rintro ⟨h1, h2, h3⟩
      cases b with
      | d2 M => simp [NDArr.ndim] at h1
      | d1 v => exact ⟨_, (Poly.add_equality_ok hp A _ idx _).2 ⟨v, rfl, h2, h3, rfl⟩⟩
  · intro q hq
    obtain ⟨h0, v, h1, -, -, h4⟩ := Poly.add_equality_spec hp hq
    exact ⟨h0, v, h1, h4⟩

/-- a polyhedron in `R^3` and a constraint on its coordinates 0 and 2 that meet the hypotheses -/
example : ∃ (p : Poly) (A : Mat ℝ) (b : NDArr ℝ), p.Inv 3 ∧ Spec.Increasing 3 [0, 2] ∧
    b.ndim = 1 ∧ b.size = A.nr ∧ A.nc = ((some [0, 2]).getD (List.range 3)).length ∧ 0 < A.nr :=
  ⟨Poly.fresh ⟨1, 3, fun _ _ => 1⟩ ⟨1, fun _ => 1⟩ (Mat.zeros 0 3) (Vec.zeros 0), ⟨1, 2, fun _ _ => 1⟩,
    .d1 ⟨1, fun _ => 5⟩, ⟨rfl, rfl, rfl, rfl⟩, ⟨by simp, by simp⟩, rfl, rfl, rfl, by norm_num⟩

/-- a call that adds constraints -/
inductive AddOp where
  | ineq (A : Mat ℝ) (b : NDArr ℝ) (idx : Option (List ℕ))
  | eq (C : Mat ℝ) (d : NDArr ℝ) (idx : Option (List ℕ))
  | lower (v : Bound) (idx : Option (List ℕ))
  | upper (v : Bound) (idx : Option (List ℕ))
  | bounds (v w : Bound) (idx : Option (List ℕ))

namespace AddOp

/-- the call in the model -/
def call : AddOp → PyM Poly Unit
  | ineq A b idx => Poly.add_inequality A b idx
  | eq C d idx => Poly.add_equality C d idx
  | lower v idx => Poly.add_lower_bound v idx
  | upper v idx => Poly.add_upper_bound v idx
  | bounds v w idx => Poly.add_bounds v w idx

/-- the index list -/
def idx : AddOp → Option (List ℕ)
  | ineq _ _ idx | eq _ _ idx | lower _ idx | upper _ idx | bounds _ _ idx => idx

/-- the entries of a one dimensional array of `m` entries -/
def Entries (a : NDArr ℝ) (m : ℕ) (v : ℕ → ℝ) : Prop := ∃ u : Vec ℝ, a = .d1 u ∧ u.n = m ∧ u.e = v

/-- the entries of a bound on `m` coordinates: a float is a bound on one coordinate -/
def BoundEntries : Bound → ℕ → (ℕ → ℝ) → Prop
  | .flt a, m, v => m = 1 ∧ v = fun _ => a
  | .arr u, m, v => Entries u m v

/-- the constraint that is asked for, in `R^n`, in terms of the coordinates `l` it applies to -/
def Holds (n : ℕ) (op : AddOp) (x : ℕ → ℝ) : Prop :=
  let l := op.idx.getD (List.range n)
  match op with
  | ineq A b _ => ∃ v, Entries b A.nr v ∧ Spec.IneqAt A v l x
  | eq C d _ => ∃ v, Entries d C.nr v ∧ Spec.EqAt C v l x
  | lower v _ => ∃ u, BoundEntries v l.length u ∧ ∀ k < l.length, u k ≤ x (l.getD k 0)
  | upper v _ => ∃ u, BoundEntries v l.length u ∧ ∀ k < l.length, x (l.getD k 0) ≤ u k
  | bounds v w _ => ∃ u t, BoundEntries v l.length u ∧ BoundEntries w l.length t ∧
      ∀ k < l.length, u k ≤ x (l.getD k 0) ∧ x (l.getD k 0) ≤ t k

/-- the sizes of the data of the call agree, in `R^n` -/
def Sized (n : ℕ) (op : AddOp) : Prop :=
  let l := op.idx.getD (List.range n)
  match op with
  | ineq A b _ => (∃ v, Entries b A.nr v) ∧ A.nc = l.length
  | eq C d _ => (∃ v, Entries d C.nr v) ∧ C.nc = l.length
  | lower v _ => ∃ u, BoundEntries v l.length u
  | upper v _ => ∃ u, BoundEntries v l.length u
  | bounds v w _ => (∃ u, BoundEntries v l.length u) ∧ ∃ t, BoundEntries w l.length t

/-- a history of additions -/
def history : List AddOp → PyM Poly Unit
  | [] => pure ()
  | op :: ops => do
    op.call
    history ops

theorem boundEntries_iff {v : Bound} {m : ℕ} {u : ℕ → ℝ} :
    BoundEntries v m u ↔ ∃ w : Vec ℝ, Poly.Bound.toArr v = .d1 w ∧ w.n = m ∧ w.e = u := by
  cases v with
  | flt a =>
    constructor
    · rintro ⟨rfl, rfl⟩; exact ⟨_, rfl, rfl, rfl⟩
    · rintro ⟨w, h1, h2, h3⟩
      cases h1
      exact ⟨h2.symm, h3.symm⟩
  | arr a => exact Iff.rfl

theorem call_ok {n : ℕ} {p : Poly} (hp : p.Inv n) (op : AddOp)
    (hidx : ∀ l, op.idx = some l → Spec.Increasing n l) :
    (∃ q, op.call p = (.ok (), q)) ↔ op.Sized n := by
  have hs := Poly.sel_eq hidx
  cases op with
  | ineq A b idx =>
    simp only [call, Sized, AddOp.idx] at hs ⊢
    rw [← hs]
    constructor
    · rintro ⟨q, hq⟩
      obtain ⟨v, h1, h2, h3, -⟩ := (Poly.add_inequality_ok hp A b idx q).1 hq
      exact ⟨⟨_, v, h1, h2, rfl⟩, h3⟩
    · rintro ⟨⟨_, v, h1, h2, -⟩, h3⟩
      exact ⟨_, (Poly.add_inequality_ok hp A b idx _).2 ⟨v, h1, h2, h3, rfl⟩⟩
  | eq A b idx =>
    simp only [call, Sized, AddOp.idx] at hs ⊢
    rw [← hs]
    constructor
    · rintro ⟨q, hq⟩
      obtain ⟨v, h1, h2, h3, -⟩ := (Poly.add_equality_ok hp A b idx q).1 hq
      exact ⟨⟨_, v, h1, h2, rfl⟩, h3⟩
    · rintro ⟨⟨_, v, h1, h2, -⟩, h3⟩
      exact ⟨_, (Poly.add_equality_ok hp A b idx _).2 ⟨v, h1, h2, h3, rfl⟩⟩
  | lower v idx =>
    simp only [call, Sized, AddOp.idx] at hs ⊢
    rw [← hs]
    constructor
    · rintro ⟨q, hq⟩
      obtain ⟨-, w, h1, h2, -⟩ := Poly.add_lower_bound_spec hp v idx q hq
      exact ⟨_, boundEntries_iff.2 ⟨w, h1, h2, rfl⟩⟩
    · rintro ⟨u, hu⟩
      obtain ⟨w, h1, h2, -⟩ := boundEntries_iff.1 hu
      exact Poly.add_lower_bound_ok hp v idx h1 h2
  | upper v idx =>
    simp only [call, Sized, AddOp.idx] at hs ⊢
    rw [← hs]
    constructor
    · rintro ⟨q, hq⟩
      obtain ⟨-, w, h1, h2, -⟩ := Poly.add_upper_bound_spec hp v idx q hq
      exact ⟨_, boundEntries_iff.2 ⟨w, h1, h2, rfl⟩⟩
    · rintro ⟨u, hu⟩
      obtain ⟨w, h1, h2, -⟩ := boundEntries_iff.1 hu
      exact Poly.add_upper_bound_ok hp v idx h1 h2
  | bounds v w idx =>
    simp only [call, Sized, AddOp.idx] at hs ⊢
    rw [← hs]
    constructor
    · rintro ⟨q, hq⟩
      unfold Poly.add_bounds at hq
      rw [PyM.bind_apply] at hq
      rcases hl : Poly.add_lower_bound v idx p with ⟨r, p1⟩
      rw [hl] at hq
      cases r with
      | error e => simp at hq
      | ok a =>
        simp only [] at hq
        obtain ⟨h0, u, h1, h2, -⟩ := Poly.add_lower_bound_spec hp v idx p1 hl
        obtain ⟨-, t, h3, h4, -⟩ := Poly.add_upper_bound_spec h0 w idx q hq
        exact ⟨⟨_, boundEntries_iff.2 ⟨u, h1, h2, rfl⟩⟩, _, boundEntries_iff.2 ⟨t, h3, h4, rfl⟩⟩
    · rintro ⟨⟨u, hu⟩, t, ht⟩
      obtain ⟨u', h1, h2, -⟩ := boundEntries_iff.1 hu
      obtain ⟨t', h3, h4, -⟩ := boundEntries_iff.1 ht
      obtain ⟨p1, hl⟩ := Poly.add_lower_bound_ok hp v idx h1 h2
      obtain ⟨h0, -⟩ := Poly.add_lower_bound_spec hp v idx p1 hl
      obtain ⟨q, hq⟩ := Poly.add_upper_bound_ok h0 w idx h3 h4
      refine ⟨q, ?_⟩
      unfold Poly.add_bounds
      rw [PyM.bind_ok hl]
      exact hq

theorem call_mem {n : ℕ} {p q : Poly} (hp : p.Inv n) (op : AddOp)
    (hidx : ∀ l, op.idx = some l → Spec.Increasing n l) (h : op.call p = (.ok (), q)) :
    q.Inv n ∧ ∀ x, q.Mem x ↔ p.Mem x ∧ op.Holds n x := by
  have hs := Poly.sel_eq hidx
  cases op with
  | ineq A b idx =>
    simp only [call, Holds, AddOp.idx] at hs h ⊢
    rw [← hs]
    obtain ⟨h0, v, h1, h2, h3, h4⟩ := Poly.add_inequality_spec hp h
    refine ⟨h0, fun x => ?_⟩
    rw [h4]
    refine and_congr_right fun _ => ⟨fun h => ⟨_, ⟨v, h1, h2, rfl⟩, h⟩, ?_⟩
    rintro ⟨u, ⟨w, hw, -, rfl⟩, hu⟩
    rw [h1] at hw; cases hw; exact hu
  | eq A b idx =>
    simp only [call, Holds, AddOp.idx] at hs h ⊢
    rw [← hs]
    obtain ⟨h0, v, h1, h2, h3, h4⟩ := Poly.add_equality_spec hp h
    refine ⟨h0, fun x => ?_⟩
    rw [h4]
    refine and_congr_right fun _ => ⟨fun h => ⟨_, ⟨v, h1, h2, rfl⟩, h⟩, ?_⟩
    rintro ⟨u, ⟨w, hw, -, rfl⟩, hu⟩
    rw [h1] at hw; cases hw; exact hu
  | lower v idx =>
    simp only [call, Holds, AddOp.idx] at hs h ⊢
    rw [← hs]
    obtain ⟨h0, u, h1, h2, h4⟩ := Poly.add_lower_bound_spec hp v idx q h
    refine ⟨h0, fun x => ?_⟩
    rw [h4]
    refine and_congr_right fun _ => ⟨fun h => ⟨_, boundEntries_iff.2 ⟨u, h1, h2, rfl⟩, h⟩, ?_⟩
    rintro ⟨u', hu', hx⟩
    obtain ⟨w, hw, -, rfl⟩ := boundEntries_iff.1 hu'
    rw [h1] at hw; cases hw; exact hx
  | upper v idx =>
    simp only [call, Holds, AddOp.idx] at hs h ⊢
    rw [← hs]
    obtain ⟨h0, u, h1, h2, h4⟩ := Poly.add_upper_bound_spec hp v idx q h
    refine ⟨h0, fun x => ?_⟩
    rw [h4]
    refine and_congr_right fun _ => ⟨fun h => ⟨_, boundEntries_iff.2 ⟨u, h1, h2, rfl⟩, h⟩, ?_⟩
    rintro ⟨u', hu', hx⟩
    obtain ⟨w, hw, -, rfl⟩ := boundEntries_iff.1 hu'
    rw [h1] at hw; cases hw; exact hx
  | bounds v w idx =>
    simp only [call, Holds, AddOp.idx] at hs h ⊢
    rw [← hs]
    unfold Poly.add_bounds at h
    rw [PyM.bind_apply] at h
    rcases hl : Poly.add_lower_bound v idx p with ⟨r, p1⟩
    rw [hl] at h
    cases r with
    | error e => simp at h
    | ok a =>
      simp only [] at h
      obtain ⟨h0, u, h1, h2, h3⟩ := Poly.add_lower_bound_spec hp v idx p1 hl
      obtain ⟨h0', t, h4, h5, h6⟩ := Poly.add_upper_bound_spec h0 w idx q h
      refine ⟨h0', fun x => ?_⟩
      rw [h6, h3, and_assoc]
      refine and_congr_right fun _ => ⟨fun hx => ⟨_, _, boundEntries_iff.2 ⟨u, h1, h2, rfl⟩,
        boundEntries_iff.2 ⟨t, h4, h5, rfl⟩, fun k hk => ⟨hx.1 k hk, hx.2 k hk⟩⟩, ?_⟩
      rintro ⟨u', t', hu', ht', hx⟩
      obtain ⟨w1, hw1, -, rfl⟩ := boundEntries_iff.1 hu'
      obtain ⟨w2, hw2, -, rfl⟩ := boundEntries_iff.1 ht'
      rw [h1] at hw1; cases hw1
      rw [h4] at hw2; cases hw2
      exact ⟨fun k hk => (hx k hk).1, fun k hk => (hx k hk).2⟩

theorem history_ok {n : ℕ} {p : Poly} (hp : p.Inv n) (ops : List AddOp)
    (hidx : ∀ op ∈ ops, ∀ l, op.idx = some l → Spec.Increasing n l) :
    (∃ q, history ops p = (.ok (), q)) ↔ ∀ op ∈ ops, op.Sized n := by
  induction ops generalizing p with
  | nil => exact ⟨fun _ => by simp, fun _ => ⟨p, rfl⟩⟩
  | cons op ops ih =>
    have hc := call_ok hp op (hidx op (by simp))
    rw [List.forall_mem_cons, ← hc]
    constructor
    · rintro ⟨q, hq⟩
      unfold history at hq
      rw [PyM.bind_apply] at hq
      rcases hl : op.call p with ⟨r, p1⟩
      rw [hl] at hq
      cases r with
      | error e => simp at hq
      | ok a =>
        simp only [] at hq
        exact ⟨⟨p1, rfl⟩, (ih (call_mem hp op (hidx op (by simp)) hl).1
          (fun o ho => hidx o (by simp [ho]))).1 ⟨q, hq⟩⟩
    · rintro ⟨⟨p1, hl⟩, h⟩
      obtain ⟨q, hq⟩ := (ih (call_mem hp op (hidx op (by simp)) hl).1
          (fun o ho => hidx o (by simp [ho]))).2 h
      refine ⟨q, ?_⟩
      unfold history
      rw [PyM.bind_ok hl]
      exact hq

theorem history_mem {n : ℕ} {p q : Poly} (hp : p.Inv n) (ops : List AddOp)
    (hidx : ∀ op ∈ ops, ∀ l, op.idx = some l → Spec.Increasing n l)
    (h : history ops p = (.ok (), q)) :
    q.Inv n ∧ ∀ x, q.Mem x ↔ p.Mem x ∧ ∀ op ∈ ops, op.Holds n x := by
  induction ops generalizing p with
  | nil =>
    have : p = q := congrArg Prod.snd h
    subst this
    simp [hp]
  | cons op ops ih =>
    unfold history at h
    rw [PyM.bind_apply] at h
    rcases hl : op.call p with ⟨r, p1⟩
    rw [hl] at h
    cases r with
    | error e => simp at h
    | ok a =>
      simp only [] at h
      obtain ⟨h1, h2⟩ := call_mem hp op (hidx op (by simp)) hl
      obtain ⟨h3, h4⟩ := ih h1 (fun o ho => hidx o (by simp [ho])) h
      refine ⟨h3, fun x => ?_⟩
      rw [h4, h2, List.forall_mem_cons, and_assoc]

end AddOp

/-- C03: a history of additions succeeds exactly when every call is well sized; then the set is the
initial one intersected with all the constraints, so it never grows, and any reordering of the history
succeeds as well and gives the same set. -/
theorem C03 (n : ℕ) (p : Poly) (hp : p.Inv n) (ops : List AddOp)
    (hidx : ∀ op ∈ ops, ∀ l, op.idx = some l → Spec.Increasing n l) :
    ((∃ q, AddOp.history ops p = (.ok (), q)) ↔ ∀ op ∈ ops, op.Sized n) ∧
    ∀ q, AddOp.history ops p = (.ok (), q) →
      (∀ x, q.Mem x ↔ p.Mem x ∧ ∀ op ∈ ops, op.Holds n x) ∧
      (∀ x, q.Mem x → p.Mem x) ∧
      ∀ ops', ops'.Perm ops → ∃ q', AddOp.history ops' p = (.ok (), q') ∧ ∀ x, q'.Mem x ↔ q.Mem x := by
  refine ⟨AddOp.history_ok hp ops hidx, fun q hq => ?_⟩
  obtain ⟨-, h2⟩ := AddOp.history_mem hp ops hidx hq
  refine ⟨h2, fun x hx => ((h2 x).1 hx).1, fun ops' hperm => ?_⟩
  have hidx' : ∀ op ∈ ops', ∀ l, op.idx = some l → Spec.Increasing n l :=
    fun op ho => hidx op (hperm.mem_iff.1 ho)
  obtain ⟨q', hq'⟩ := (AddOp.history_ok hp ops' hidx').2 fun op ho =>
    (AddOp.history_ok hp ops hidx).1 ⟨q, hq⟩ op (hperm.mem_iff.1 ho)
  obtain ⟨-, h4⟩ := AddOp.history_mem hp ops' hidx' hq'
  refine ⟨q', hq', fun x => ?_⟩
  rw [h4, h2]
  refine and_congr_right fun _ => ⟨fun h op ho => h op (hperm.mem_iff.2 ho),
    fun h op ho => h op (hperm.mem_iff.1 ho)⟩

/-- a history with three different calls, on indices, all coordinates and a float bound -/
example : ∃ p : Poly, p.Inv 2 ∧ ∀ op ∈ [AddOp.lower (.flt 1) (some [1]),
    AddOp.eq ⟨1, 2, fun _ _ => 1⟩ (.d1 ⟨1, fun _ => 3⟩) none,
    AddOp.bounds (.arr (.d1 ⟨2, fun _ => 0⟩)) (.arr (.d1 ⟨2, fun _ => 9⟩)) none],
    op.Sized 2 ∧ ∀ l, op.idx = some l → Spec.Increasing 2 l := by
  refine ⟨Poly.fresh (Mat.zeros 0 2) (Vec.zeros 0) (Mat.zeros 0 2) (Vec.zeros 0), Poly.empty_inv 2, ?_⟩
  intro op ho
  simp only [List.mem_cons, List.not_mem_nil, or_false] at ho
  rcases ho with rfl | rfl | rfl
  · refine ⟨⟨_, rfl, rfl⟩, ?_⟩
    rintro l h; cases h; exact ⟨by simp, by simp⟩
  · exact ⟨⟨⟨_, _, rfl, rfl, rfl⟩, rfl⟩, by rintro l h; cases h⟩
  · exact ⟨⟨⟨_, _, rfl, rfl, rfl⟩, _, _, rfl, rfl, rfl⟩, by rintro l h; cases h⟩

end Verif.Props
