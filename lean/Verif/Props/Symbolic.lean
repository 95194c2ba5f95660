import Verif.Proofs.Symbolic
import Verif.Props.PolyhedronBasic
import Verif.Props.Discretization

/- Symbolic constructors of polyhedra and systems. -/
namespace Verif.Props
open Finset
open Spec (Expr)
open Dyn Sympy

/-- the values of the symbols `X` as a point -/
def point (X : List ℕ) (σ : ℕ → ℝ) (j : ℕ) : ℝ := σ (X.getD j 0)

/-- every point is given by some values of distinct symbols, so that "for all values of the symbols" is "for all points" -/
theorem point_surj (X : List ℕ) (hX : X.Nodup) (x : ℕ → ℝ) : ∃ σ, ∀ j < X.length, point X σ j = x j := by
  refine ⟨fun s => x (X.idxOf s), fun j hj => ?_⟩
  show x (X.idxOf (X.getD j 0)) = x j
  rw [List.getD_eq_getElem _ _ hj, hX.idxOf_getElem j hj]

/-- the value of an expression is an affine function of the symbols `X` -/
def AffineValue (X : List ℕ) (e : Expr) : Prop :=
  ∃ (a : ℕ → ℝ) (b : ℝ), ∀ σ, e.eval σ = ∑ j ∈ range X.length, a j * point X σ j + b

theorem forall_expr {expr : List Expr} {P : Expr → Prop} : (∀ i < expr.length, P (expr.getD i (.num 0))) ↔ ∀ e ∈ expr, P e := by
  constructor
  · intro h e he
    obtain ⟨i, hi, rfl⟩ := List.getElem_of_mem he
    have := h i hi
    rwa [List.getD_eq_getElem _ _ hi] at this
  · intro h i hi
    rw [List.getD_eq_getElem _ _ hi]
    exact h _ (List.getElem_mem hi)

theorem matrices_value {F : Conv} (hF : ConvSpec F) {X : List ℕ} (hX : X.Nodup) {expr : List Expr} {A : Mat ℝ} {b : Vec ℝ}
    (h : get_matrices_affine_expression F X expr = .ok (A, b)) : ∀ e ∈ expr, AffineValue X e := by
  obtain ⟨h1, h2, h3, h4⟩ := matrices_ok hF hX h
  refine forall_expr.1 fun i hi => ⟨A.e i, - b.e i, fun σ => ?_⟩
  rw [h4 i hi σ, h2]
  rfl

theorem matrices_le {F : Conv} (hF : ConvSpec F) {X : List ℕ} (hX : X.Nodup) {expr : List Expr} {A : Mat ℝ} {b : Vec ℝ}
    (h : get_matrices_affine_expression F X expr = .ok (A, b)) (σ : ℕ → ℝ) :
    ((∀ i < A.nr, ∑ j ∈ range A.nc, A.e i j * point X σ j ≤ b.e i) ↔ ∀ e ∈ expr, e.eval σ ≤ 0) ∧
      ((∀ i < A.nr, ∑ j ∈ range A.nc, A.e i j * point X σ j = b.e i) ↔ ∀ e ∈ expr, e.eval σ = 0) := by
  obtain ⟨h1, h2, h3, h4⟩ := matrices_ok hF hX h
  refine ⟨?_, ?_⟩
  · rw [← forall_expr (P := fun e => e.eval σ ≤ 0), h1]
    refine forall_congr' fun i => forall_congr' fun hi => ?_
    rw [h4 i hi σ]
    exact sub_nonpos.symm
  · rw [← forall_expr (P := fun e => e.eval σ = 0), h1]
    refine forall_congr' fun i => forall_congr' fun hi => ?_
    rw [h4 i hi σ]
    exact sub_eq_zero.symm

theorem sel_range (A : Mat ℝ) (n : ℕ) (hn : A.nc = n) (x : ℕ → ℝ) (i : ℕ) :
    ∑ k ∈ range A.nc, A.e i k * x ((List.range n).getD k 0) = ∑ k ∈ range A.nc, A.e i k * x k := by
  refine Finset.sum_congr rfl fun k hk => ?_
  have hk' := mem_range.1 hk
  rw [List.getD_eq_getElem _ _ (by rw [List.length_range]; omega), List.getElem_range]

/-- C90: `add_symbolic_inequality(x, expr)` and `add_symbolic_equality(x, expr)` with as many distinct symbols as the polyhedron has variables add
exactly the constraints `expr <= 0` and `expr = 0`, for every expression they accept; they accept all affine expressions; otherwise they raise
`TypeError` and leave the polyhedron as it was.  With another number of symbols they add nothing and raise. -/
theorem C90 (F : Conv) (hF : ConvSpec F) (n : ℕ) (p : Poly) (hp : p.Inv n) (X : List ℕ) (hX : X.Nodup) (expr : List Expr) :
    (X.length = n → (∀ e ∈ expr, e.IsAffine X) →
      (∃ q, Poly.add_symbolic_inequality F X expr p = (.ok (), q)) ∧ ∃ q, Poly.add_symbolic_equality F X expr p = (.ok (), q)) ∧
    (∀ q, Poly.add_symbolic_inequality F X expr p = (.ok (), q) → X.length = n ∧ q.Inv n ∧ (∀ e ∈ expr, AffineValue X e) ∧
      ∀ σ, q.Mem (point X σ) ↔ p.Mem (point X σ) ∧ ∀ e ∈ expr, e.eval σ ≤ 0) ∧
    (∀ q, Poly.add_symbolic_equality F X expr p = (.ok (), q) → X.length = n ∧ q.Inv n ∧ (∀ e ∈ expr, AffineValue X e) ∧
      ∀ σ, q.Mem (point X σ) ↔ p.Mem (point X σ) ∧ ∀ e ∈ expr, e.eval σ = 0) ∧
    (X.length = n → ∀ err q, Poly.add_symbolic_inequality F X expr p = (.error err, q) ∨
      Poly.add_symbolic_equality F X expr p = (.error err, q) → err = .typeError ∧ q = p) := by
  have C2 := fun A b => C02 n p hp A b none (fun _ h => by cases h)
  have lin : ∀ A b, get_matrices_affine_expression F X expr = .ok (A, b) →
      Poly.add_symbolic_inequality F X expr p = Poly.add_inequality A (.d1 b) none p := fun A b h => by
    unfold Poly.add_symbolic_inequality
    rw [h]
    rfl
  have leq : ∀ A b, get_matrices_affine_expression F X expr = .ok (A, b) →
      Poly.add_symbolic_equality F X expr p = Poly.add_equality A (.d1 b) none p := fun A b h => by
    unfold Poly.add_symbolic_equality
    rw [h]
    rfl
  have lierr : ∀ err, get_matrices_affine_expression F X expr = .error err →
      Poly.add_symbolic_inequality F X expr p = (.error err, p) := fun err h => by
    unfold Poly.add_symbolic_inequality
    rw [h]
    rfl
  have leerr : ∀ err, get_matrices_affine_expression F X expr = .error err →
      Poly.add_symbolic_equality F X expr p = (.error err, p) := fun err h => by
    unfold Poly.add_symbolic_equality
    rw [h]
    rfl
  have both : ∀ A b, get_matrices_affine_expression F X expr = .ok (A, b) → X.length = n →
      (∃ q, Poly.add_inequality A (.d1 b) none p = (.ok (), q)) ∧ ∃ q, Poly.add_equality A (.d1 b) none p = (.ok (), q) := by
    intro A b h hn
    obtain ⟨h1, h2, h3, h4⟩ := matrices_ok hF hX h
    have cond : (NDArr.d1 b).ndim = 1 ∧ (NDArr.d1 b).size = A.nr ∧ A.nc = ((none : Option (List ℕ)).getD (List.range n)).length :=
      ⟨rfl, h3.trans h1.symm, by rw [h2, hn]; exact List.length_range.symm⟩
    exact ⟨(C2 A (.d1 b)).1.2 cond, (C2 A (.d1 b)).2.2.1.2 cond⟩
  refine ⟨fun hn hA => ?_, fun q hq => ?_, fun q hq => ?_, fun hn err q hq => ?_⟩
  · obtain ⟨A, b, h⟩ := matrices_affine hF hA
    rw [lin A b h, leq A b h]
    exact both A b h hn
  · cases h : get_matrices_affine_expression F X expr with
    | error err => rw [lierr err h] at hq; cases (Prod.mk.inj hq).1
    | ok Ab =>
      obtain ⟨A, b⟩ := Ab
      rw [lin A b h] at hq
      obtain ⟨h1, h2, h3, h4⟩ := matrices_ok hF hX h
      have hn : A.nc = n := by
        have := ((C2 A (.d1 b)).1.1 ⟨q, hq⟩).2.2
        rwa [show ((none : Option (List ℕ)).getD (List.range n)).length = n from List.length_range] at this
      obtain ⟨k1, v, hv, k2⟩ := (C2 A (.d1 b)).2.1 q hq
      cases hv
      refine ⟨h2.symm.trans hn, k1, matrices_value hF hX h, fun σ => ?_⟩
      rw [k2, ← (matrices_le hF hX h σ).1]
      refine and_congr_right fun _ => forall_congr' fun i => forall_congr' fun hi => ?_
      rw [show (none : Option (List ℕ)).getD (List.range n) = List.range n from rfl, sel_range A n hn]
  · cases h : get_matrices_affine_expression F X expr with
    | error err => rw [leerr err h] at hq; cases (Prod.mk.inj hq).1
    | ok Ab =>
      obtain ⟨A, b⟩ := Ab
      rw [leq A b h] at hq
      obtain ⟨h1, h2, h3, h4⟩ := matrices_ok hF hX h
      have hn : A.nc = n := by
        have := ((C2 A (.d1 b)).2.2.1.1 ⟨q, hq⟩).2.2
        rwa [show ((none : Option (List ℕ)).getD (List.range n)).length = n from List.length_range] at this
      obtain ⟨k1, v, hv, k2⟩ := (C2 A (.d1 b)).2.2.2 q hq
      cases hv
      refine ⟨h2.symm.trans hn, k1, matrices_value hF hX h, fun σ => ?_⟩
      rw [k2, ← (matrices_le hF hX h σ).2]
      refine and_congr_right fun _ => forall_congr' fun i => forall_congr' fun hi => ?_
      rw [show (none : Option (List ℕ)).getD (List.range n) = List.range n from rfl, sel_range A n hn]
  · cases h : get_matrices_affine_expression F X expr with
    | error err' =>
      rw [lierr err' h, leerr err' h] at hq
      rcases hq with hq | hq <;> obtain ⟨e1, rfl⟩ := Prod.mk.inj hq <;> cases e1 <;>
        exact ⟨matrices_error hF h, rfl⟩
    | ok Ab =>
      obtain ⟨A, b⟩ := Ab
      obtain ⟨⟨q1, hq1⟩, q2, hq2⟩ := both A b h hn
      rw [lin A b h, leq A b h, hq1, hq2] at hq
      rcases hq with hq | hq <;> cases (Prod.mk.inj hq).1

/-- `from_symbolic` without equalities -/
theorem from_symbolic_ineq {F : Conv} (hF : ConvSpec F) {X : List ℕ} (hX : X.Nodup) {ineq : List Expr} {A : Mat ℝ} {b : Vec ℝ}
    (h : get_matrices_affine_expression F X ineq = .ok (A, b)) :
    ∃ p, Poly.init A (.d1 b) = .ok p ∧ p.Inv X.length ∧ ∀ σ, p.Mem (point X σ) ↔ ∀ e ∈ ineq, e.eval σ ≤ 0 := by
  obtain ⟨h1, h2, h3, h4⟩ := matrices_ok hF hX h
  obtain ⟨-, k1, k2, k3⟩ := C01 A (.d1 b) none none
  obtain ⟨p, hp⟩ := k1.2 ⟨rfl, h3.trans h1.symm, Or.inl ⟨rfl, rfl⟩⟩
  refine ⟨p, hp, h2 ▸ k3 p hp (fun _ h => by cases h), fun σ => ?_⟩
  obtain ⟨v, hv, hm⟩ := k2 p hp
  cases hv
  rw [hm, ← (matrices_le hF hX h σ).1]
  exact ⟨fun h => h.1, fun h => ⟨h, fun _ _ h => by cases h⟩⟩

/-- C61: `from_symbolic` and `get_state_transition_matrices` on distinct symbols.  Whatever the expressions, an answer reproduces them for all values of
the symbols: the polyhedron is `{ineq <= 0, eq = 0}`, and `A x + B u + c` is `x_next`.  All affine expressions are accepted.  The only exception is
`TypeError`, and then some expression is not an affine expression. -/
theorem C61 (F : Conv) (hF : ConvSpec F) :
    -- polyhedra
    (∀ (X : List ℕ) (_ : X.Nodup) (ineq : List Expr) (eq : Option (List Expr)),
      (∀ p, Poly.from_symbolic F X ineq eq = .ok p → p.Inv X.length ∧ (∀ e ∈ ineq ++ eq.getD [], AffineValue X e) ∧
        ∀ σ, p.Mem (point X σ) ↔ (∀ e ∈ ineq, e.eval σ ≤ 0) ∧ ∀ e ∈ eq.getD [], e.eval σ = 0) ∧
      ((∀ e ∈ ineq ++ eq.getD [], e.IsAffine X) → ∃ p, Poly.from_symbolic F X ineq eq = .ok p) ∧
      ∀ err, Poly.from_symbolic F X ineq eq = .error err → err = .typeError) ∧
    -- dynamics
    ∀ (x u : List ℕ) (_ : (x ++ u).Nodup) (x_next : List Expr),
      (∀ A B c, get_state_transition_matrices F x u x_next = .ok (A, B, c) →
        A.nr = x_next.length ∧ A.nc = x.length ∧ B.nr = x_next.length ∧ B.nc = u.length ∧ c.n = x_next.length ∧
        ∀ i < x_next.length, ∀ σ, Spec.affine A B c (point x σ) (point u σ) i = (x_next.getD i (.num 0)).eval σ) ∧
      ((∀ e ∈ x_next, e.IsAffine (x ++ u)) → ∃ A B c, get_state_transition_matrices F x u x_next = .ok (A, B, c)) ∧
      ∀ err, get_state_transition_matrices F x u x_next = .error err → err = .typeError := by
  refine ⟨fun X hX ineq eq => ?_, fun x u hX x_next => ⟨fun A B c h => ?_, fun h => transition_affine hF h, fun err h => transition_error hF h⟩⟩
  · have base : ∀ A b p, get_matrices_affine_expression F X ineq = .ok (A, b) → Poly.init A (.d1 b) = .ok p →
        Poly.from_symbolic F X ineq eq = match eq with
          | none => .ok p
          | some eq => Poly.runOn p (Poly.add_symbolic_equality F X eq) := by
      intro A b p h hp
      unfold Poly.from_symbolic
      rw [h, Py.ok_bind]
      simp only [hp, Py.ok_bind]
      cases eq with
      | none => rfl
      | some eq =>
        show ((get_matrices_affine_expression F X eq) >>= _) = Poly.runOn p (Poly.add_symbolic_equality F X eq)
        cases h' : get_matrices_affine_expression F X eq with
        | error err =>
          have : Poly.add_symbolic_equality F X eq p = (.error err, p) := by
            unfold Poly.add_symbolic_equality
            rw [h']
            rfl
          unfold Poly.runOn
          rw [this]
          rfl
        | ok Cd =>
          have : Poly.add_symbolic_equality F X eq p = Poly.add_equality Cd.1 (.d1 Cd.2) none p := by
            unfold Poly.add_symbolic_equality
            rw [h']
            rfl
          show Poly.runOn p (Poly.add_equality Cd.1 (.d1 Cd.2)) = Poly.runOn p (Poly.add_symbolic_equality F X eq)
          unfold Poly.runOn
          rw [this]
    cases h : get_matrices_affine_expression F X ineq with
    | error err =>
      have herr : Poly.from_symbolic F X ineq eq = .error err := by
        unfold Poly.from_symbolic
        rw [h]
        rfl
      refine ⟨fun p hp => ?_, fun hA => ?_, fun err' h' => ?_⟩
      · rw [herr] at hp; cases hp
      · obtain ⟨A, b, h'⟩ := matrices_affine hF (fun e he => hA e (List.mem_append_left _ he))
        rw [h'] at h; cases h
      · rw [herr] at h'; cases h'; exact matrices_error hF h
    | ok Ab =>
      obtain ⟨A, b⟩ := Ab
      obtain ⟨p0, hp0, inv0, mem0⟩ := from_symbolic_ineq hF hX h
      rw [base A b p0 h hp0]
      cases eq with
      | none =>
        refine ⟨fun p hp => ?_, fun _ => ⟨p0, rfl⟩, fun err h' => by cases h'⟩
        cases hp
        refine ⟨inv0, fun e he => matrices_value hF hX h e ?_, fun σ => ?_⟩
        · rwa [show (none : Option (List Expr)).getD [] = [] from rfl, List.append_nil] at he
        · rw [mem0]
          exact ⟨fun h => ⟨h, fun _ h => by cases h⟩, fun h => h.1⟩
      | some eq =>
        obtain ⟨k1, -, k3, k4⟩ := C90 F hF X.length p0 inv0 X hX eq
        refine ⟨fun p hp => ?_, fun hA => ?_, fun err h' => ?_⟩
        · have hp' : Poly.runOn p0 (Poly.add_symbolic_equality F X eq) = .ok p := hp
          unfold Poly.runOn at hp'
          rcases hq : Poly.add_symbolic_equality F X eq p0 with ⟨r, q⟩
          rw [hq] at hp'
          cases r with
          | error e => cases hp'
          | ok _ =>
            cases hp'
            obtain ⟨-, m1, m2, m3⟩ := k3 _ hq
            refine ⟨m1, fun e he => ?_, fun σ => ?_⟩
            · rcases List.mem_append.1 he with he | he
              · exact matrices_value hF hX h e he
              · exact m2 e he
            · rw [m3, mem0]
              rfl
        · obtain ⟨q, hq⟩ := (k1 rfl (fun e he => hA e (List.mem_append_right _ he))).2
          refine ⟨q, ?_⟩
          show Poly.runOn p0 (Poly.add_symbolic_equality F X eq) = .ok q
          unfold Poly.runOn
          rw [hq]
        · have hp' : Poly.runOn p0 (Poly.add_symbolic_equality F X eq) = .error err := h'
          unfold Poly.runOn at hp'
          rcases hq : Poly.add_symbolic_equality F X eq p0 with ⟨r, q⟩
          rw [hq] at hp'
          cases r with
          | ok _ => cases hp'
          | error e => cases hp'; exact (k4 rfl _ _ (Or.inr hq)).1
  · obtain ⟨h1, h2, h3, h4, h5, h6⟩ := transition_ok hF hX h
    exact ⟨h1, h2, h3, h4, h5, fun i hi σ => (h6 i hi σ).symm⟩

/-! ### concrete cases of C61 and C90 -/

/-- `3 x - 6`, written as `3 * (x + -2)` -/
noncomputable def exprA : Expr := .mul (.num 3) (.add (.sym 0) (.num (-2)))
/-- `x y`, not affine -/
def exprB : Expr := .mul (.sym 0) (.sym 1)

theorem exprA_affine (X : List ℕ) (h : 0 ∈ X) : exprA.IsAffine X := .mulLeft _ (.add (.sym _ h) (.num _))

example : ∃ F p, ConvSpec F ∧ Poly.from_symbolic F [0, 1] [exprA] (some [.sym 1]) = .ok p ∧ p.Mem (point [0, 1] fun s => if s = 0 then 1 else 0) ∧
    ¬ p.Mem (point [0, 1] fun s => if s = 0 then 3 else 0) ∧ ¬ p.Mem (point [0, 1] fun s => if s = 0 then 1 else 1) := by
  obtain ⟨F, hF⟩ := exists_conv
  obtain ⟨h1, h2, -⟩ := (C61 F hF).1 [0, 1] (by decide) [exprA] (some [.sym 1])
  obtain ⟨p, hp⟩ := h2 (fun e he => by
    rcases List.mem_cons.1 he with rfl | he
    · exact exprA_affine _ (by decide)
    · rw [List.mem_singleton.1 he]; exact .sym _ (by decide))
  obtain ⟨-, -, hm⟩ := h1 p hp
  refine ⟨F, p, hF, hp, (hm _).2 ⟨?_, ?_⟩, fun h => ?_, fun h => ?_⟩
  · intro e he
    rw [List.mem_singleton.1 he]
    show (3 : ℝ) * ((if (0 : ℕ) = 0 then 1 else 0) + -2) ≤ 0
    norm_num
  · intro e he
    rw [List.mem_singleton.1 he]
    show (if (1 : ℕ) = 0 then (1 : ℝ) else 0) = 0
    simp
  · have := ((hm _).1 h).1 _ List.mem_cons_self
    have h' : (3 : ℝ) * ((if (0 : ℕ) = 0 then 3 else 0) + -2) ≤ 0 := this
    norm_num at h'
  · have := ((hm _).1 h).2 _ List.mem_cons_self
    have h' : (if (1 : ℕ) = 0 then (1 : ℝ) else 1) = 0 := this
    norm_num at h'

/-- products of symbols are rejected -/
example (F : Conv) (hF : ConvSpec F) : Poly.from_symbolic F [0, 1] [exprB] = .error .typeError := by
  obtain ⟨h1, -, h3⟩ := (C61 F hF).1 [0, 1] (by decide) [exprB] none
  cases h : Poly.from_symbolic F [0, 1] [exprB] with
  | error err => rw [h3 err h]
  | ok p =>
    exfalso
    obtain ⟨-, hA, -⟩ := h1 p h
    obtain ⟨a, b, hab⟩ := hA exprB (by simp)
    have e : ∀ r s : ℝ, r * s = a 0 * r + a 1 * s + b := fun r s => by
      have := hab (fun k => if k = 0 then r else s)
      have h2 : ∑ j ∈ range [0, 1].length, a j * point [0, 1] (fun k => if k = 0 then r else s) j = a 0 * r + a 1 * s := by
        simp [Finset.sum_range_succ, point]
      rw [h2] at this
      simpa [exprB, Expr.eval] using this
    have e1 := e 0 0
    have e2 := e 1 0
    have e3 := e 0 1
    have e4 := e 1 1
    linarith

/-! ### systems -/

/-- the symbols `x` take the values `v` and the symbols `u` the values `w` -/
def assign (x u : List ℕ) (v w : ℕ → ℝ) (s : ℕ) : ℝ := if s ∈ x then v (x.idxOf s) else w (u.idxOf s)

theorem point_assign {x u : List ℕ} (h : (x ++ u).Nodup) (v w : ℕ → ℝ) :
    (∀ j < x.length, point x (assign x u v w) j = v j) ∧ ∀ j < u.length, point u (assign x u v w) j = w j := by
  obtain ⟨h1, h2, h3⟩ := List.nodup_append.1 h
  refine ⟨fun j hj => ?_, fun j hj => ?_⟩
  · unfold point assign
    rw [List.getD_eq_getElem _ _ hj, if_pos (List.getElem_mem hj), h1.idxOf_getElem j hj]
  · unfold point assign
    rw [List.getD_eq_getElem _ _ hj, if_neg (fun hx => h3 _ hx _ (List.getElem_mem hj) rfl), h2.idxOf_getElem j hj]

/-- value of the expressions at the state `v` and the input `w` -/
noncomputable def stepValue (x u : List ℕ) (f : List Expr) (v w : ℕ → ℝ) (i : ℕ) : ℝ := (f.getD i (.num 0)).eval (assign x u v w)

theorem affine_congr {A B : Mat ℝ} (c : Vec ℝ) {v v' w w' : ℕ → ℝ} (hv : ∀ j < A.nc, v j = v' j) (hw : ∀ j < B.nc, w j = w' j) (i : ℕ) :
    Spec.affine A B c v w i = Spec.affine A B c v' w' i := by
  unfold Spec.affine
  rw [Finset.sum_congr rfl (fun j hj => by rw [hv j (mem_range.1 hj)]), Finset.sum_congr (s₁ := range B.nc) rfl (fun j hj => by rw [hw j (mem_range.1 hj)])]

theorem transition_step {F : Conv} (hF : ConvSpec F) {x u : List ℕ} (hX : (x ++ u).Nodup) {f : List Expr} {A B : Mat ℝ} {c : Vec ℝ}
    (h : get_state_transition_matrices F x u f = .ok (A, B, c)) : A.nr = f.length ∧ A.nc = x.length ∧ B.nr = f.length ∧ B.nc = u.length ∧
      c.n = f.length ∧ ∀ v w, ∀ i < f.length, Spec.affine A B c v w i = stepValue x u f v w i := by
  obtain ⟨h1, h2, h3, h4, h5, h6⟩ := transition_ok hF hX h
  refine ⟨h1, h2, h3, h4, h5, fun v w i hi => ?_⟩
  rw [stepValue, h6 i hi]
  obtain ⟨k1, k2⟩ := point_assign hX v w
  exact affine_congr c (fun j hj => (k1 j (h2 ▸ hj)).symm) (fun j hj => (k2 j (h4 ▸ hj)).symm) i

/-- What the constructors do with the matrices they extracted. -/
theorem affine_from_symbolic {F : Conv} {x u : List ℕ} {f : List Expr} {A B : Mat ℝ} {c : Vec ℝ}
    (h : get_state_transition_matrices F x u f = .ok (A, B, c)) : AffineSystem.from_symbolic F x u f = AffineSystem.init A B (.d1 c) := by
  unfold AffineSystem.from_symbolic
  rw [h]
  rfl

theorem linear_from_symbolic {F : Conv} {x u : List ℕ} {f : List Expr} {A B : Mat ℝ} {c : Vec ℝ}
    (h : get_state_transition_matrices F x u f = .ok (A, B, c)) :
    LinearSystem.from_symbolic F x u f = (checkNoOffset c x.length >>= fun _ => LinearSystem.init A B) := by
  unfold LinearSystem.from_symbolic
  rw [h]
  rfl

/-- C91 (partial): the one-step map of the systems made from symbolic expressions with distinct symbols.  `AffineSystem.from_symbolic` answers only
with a system whose step is the expressions, for all states and inputs; it answers for all affine expressions, one per state.  For
`LinearSystem.from_symbolic` the step differs from the expressions by at most `1e-8`, not at all if they vanish at the origin; affine expressions are
accepted exactly when their values at the origin are at most `1e-8`, and rejected with `ValueError` otherwise.

Missing: exactness of `LinearSystem.from_symbolic`, which is false (`C91_false`). -/
theorem C91_partial (F : Conv) (hF : ConvSpec F) (x u : List ℕ) (hX : (x ++ u).Nodup) (f : List Expr) :
    (∀ S, AffineSystem.from_symbolic F x u f = .ok S → f.length = x.length ∧ Spec.SystemShape x.length u.length S.A S.B S.c ∧
      S.nx = x.length ∧ S.nu = u.length ∧ ∀ v w, ∀ i < x.length, Spec.affine S.A S.B S.c v w i = stepValue x u f v w i) ∧
    ((∀ e ∈ f, e.IsAffine (x ++ u)) → (f.length = x.length → ∃ S, AffineSystem.from_symbolic F x u f = .ok S) ∧
      (f.length ≠ x.length → AffineSystem.from_symbolic F x u f = .error .valueError)) ∧
    (∀ S, LinearSystem.from_symbolic F x u f = .ok S → f.length = x.length ∧ Spec.SystemShape x.length u.length S.A S.B (Vec.zeros x.length) ∧
      S.nx = x.length ∧ S.nu = u.length ∧ ∀ v w, ∀ i < x.length,
        |Spec.affine S.A S.B (Vec.zeros x.length) v w i - stepValue x u f v w i| ≤ 1e-8 ∧
        Spec.affine S.A S.B (Vec.zeros x.length) v w i =
          stepValue x u f v w i - stepValue x u f (fun _ => 0) (fun _ => 0) i) ∧
    ((∀ e ∈ f, e.IsAffine (x ++ u)) →
      (f.length = x.length → (∀ i < x.length, |stepValue x u f (fun _ => 0) (fun _ => 0) i| ≤ 1e-8) → ∃ S, LinearSystem.from_symbolic F x u f = .ok S) ∧
      (f.length ≠ x.length ∨ (∃ i < x.length, 1e-8 < |stepValue x u f (fun _ => 0) (fun _ => 0) i|) →
        LinearSystem.from_symbolic F x u f = .error .valueError)) := by
  have zero : ∀ {A B : Mat ℝ} {c : Vec ℝ}, get_state_transition_matrices F x u f = .ok (A, B, c) → ∀ i < f.length,
      c.e i = stepValue x u f (fun _ => 0) (fun _ => 0) i := fun h i hi => by
    rw [← (transition_step hF hX h).2.2.2.2.2 _ _ i hi]
    simp [Spec.affine]
  have aerr : ∀ err, get_state_transition_matrices F x u f = .error err → AffineSystem.from_symbolic F x u f = .error err := fun err h => by
    unfold AffineSystem.from_symbolic
    rw [h]
    rfl
  have lerr : ∀ err, get_state_transition_matrices F x u f = .error err → LinearSystem.from_symbolic F x u f = .error err := fun err h => by
    unfold LinearSystem.from_symbolic
    rw [h]
    rfl
  have ainit : ∀ (A B : Mat ℝ) (c : Vec ℝ), (ValidSystem A B (some (.d1 c)) none → AffineSystem.init A B (.d1 c) = .ok ⟨A, B, c, B.nr, B.nc⟩) ∧
      (¬ ValidSystem A B (some (.d1 c)) none → AffineSystem.init A B (.d1 c) = .error .valueError) := fun A B c => by
    refine ⟨fun h => ?_, fun h => ?_⟩
    · unfold AffineSystem.init
      rw [(C47 A B (some (.d1 c)) none).1 h]
      rfl
    · unfold AffineSystem.init
      rw [(C47 A B (some (.d1 c)) none).2 h]
      rfl
  have linit : ∀ (A B : Mat ℝ), (ValidSystem A B none none → LinearSystem.init A B = .ok ⟨A, B, B.nr, B.nc, none⟩) ∧
      (¬ ValidSystem A B none none → LinearSystem.init A B = .error .valueError) := fun A B => by
    refine ⟨fun h => ?_, fun h => ?_⟩
    · unfold LinearSystem.init
      rw [(C47 A B none none).1 h]
      rfl
    · unfold LinearSystem.init
      rw [(C47 A B none none).2 h]
      rfl
  refine ⟨fun S hS => ?_, fun hA => ⟨fun hn => ?_, fun hn => ?_⟩, fun S hS => ?_, fun hA => ⟨fun hn h0 => ?_, fun hn => ?_⟩⟩
  · cases h : get_state_transition_matrices F x u f with
    | error err => rw [aerr err h] at hS; cases hS
    | ok r =>
      obtain ⟨A, B, c⟩ := r
      obtain ⟨h1, h2, h3, h4, h5, h6⟩ := transition_step hF hX h
      rw [affine_from_symbolic h] at hS
      by_cases hv : ValidSystem A B (some (.d1 c)) none
      · rw [(ainit A B c).1 hv] at hS
        cases hS
        have hn : f.length = x.length := h1.symm.trans (hv.1.trans h2)
        exact ⟨hn, ⟨h1.trans hn, h2, h3.trans hn, h4, h5.trans hn⟩, h3.trans hn, h4, fun v w i hi => h6 v w i (hn ▸ hi)⟩
      · rw [(ainit A B c).2 hv] at hS
        cases hS
  · obtain ⟨A, B, c, h⟩ := transition_affine hF hA
    obtain ⟨h1, h2, h3, h4, h5, h6⟩ := transition_step hF hX h
    rw [affine_from_symbolic h]
    exact ⟨_, (ainit A B c).1 ⟨by rw [h1, h2, hn], by rw [h1, h3], fun c' e => by cases e; exact ⟨c, rfl, by rw [h5, h1]⟩, fun _ e => by cases e⟩⟩
  · obtain ⟨A, B, c, h⟩ := transition_affine hF hA
    obtain ⟨h1, h2, h3, h4, h5, h6⟩ := transition_step hF hX h
    rw [affine_from_symbolic h]
    exact (ainit A B c).2 (fun hv => hn (h1.symm.trans (hv.1.trans h2)))
  · cases h : get_state_transition_matrices F x u f with
    | error err => rw [lerr err h] at hS; cases hS
    | ok r =>
      obtain ⟨A, B, c⟩ := r
      obtain ⟨h1, h2, h3, h4, h5, h6⟩ := transition_step hF hX h
      rw [linear_from_symbolic h] at hS
      unfold checkNoOffset at hS
      split_ifs at hS with hc
      · rw [Py.ok_bind] at hS
        by_cases hv : ValidSystem A B none none
        · rw [(linit A B).1 hv] at hS
          cases hS
          have hn : f.length = x.length := h1.symm.trans (hv.1.trans h2)
          have key : ∀ v w, ∀ i < x.length, Spec.affine A B (Vec.zeros x.length) v w i = stepValue x u f v w i - c.e i := fun v w i hi => by
            rw [← h6 v w i (hn ▸ hi)]
            simp [Spec.affine]
          refine ⟨hn, ⟨h1.trans hn, h2, h3.trans hn, h4, rfl⟩, h3.trans hn, h4, fun v w i hi => ⟨?_, ?_⟩⟩
          · have := hc.2 i (by rw [hc.1]; exact hi)
            rw [key v w i hi, sub_sub_cancel_left, abs_neg]
            exact this
          · rw [key v w i hi, zero h i (hn ▸ hi)]
        · rw [(linit A B).2 hv] at hS
          cases hS
      · cases hS
  · obtain ⟨A, B, c, h⟩ := transition_affine hF hA
    obtain ⟨h1, h2, h3, h4, h5, h6⟩ := transition_step hF hX h
    rw [linear_from_symbolic h]
    have hc : checkNoOffset c x.length = .ok () :=
      if_pos ⟨by rw [h5, hn], fun i hi => by rw [zero h i (h5 ▸ hi)]; exact h0 i (by rw [← hn, ← h5]; exact hi)⟩
    rw [hc, Py.ok_bind]
    exact ⟨_, (linit A B).1 ⟨by rw [h1, h2, hn], by rw [h1, h3], fun c' e => (by cases e), fun _ e => by cases e⟩⟩
  · obtain ⟨A, B, c, h⟩ := transition_affine hF hA
    obtain ⟨h1, h2, h3, h4, h5, h6⟩ := transition_step hF hX h
    rw [linear_from_symbolic h]
    by_cases hc : c.n = x.length ∧ ∀ i < c.n, |c.e i| ≤ 1e-8
    · exfalso
      rcases hn with hn | ⟨i, hi, h'⟩
      · exact hn (h5.symm.trans hc.1)
      · have := hc.2 i (by rw [hc.1]; exact hi)
        rw [zero h i (by rw [← h5, hc.1]; exact hi)] at this
        exact absurd h' (not_lt.2 this)
    · rw [show checkNoOffset c x.length = .error .valueError from if_neg hc]
      rfl

/-- `x + 1e-9` -/
noncomputable def drift : Expr := .add (.sym 0) (.num 1e-9)

theorem drift_affine (X : List ℕ) (h : 0 ∈ X) : drift.IsAffine X := .add (.sym _ h) (.num _)

/-- C91 is false of `LinearSystem.from_symbolic`: the dynamics `x + 1e-9` are accepted, and the system stays at the origin forever. -/
theorem C91_false (F : Conv) (hF : ConvSpec F) : ∃ S, LinearSystem.from_symbolic F [0] [1] [drift] = .ok S ∧
    Spec.affine S.A S.B (Vec.zeros 1) (fun _ => 0) (fun _ => 0) 0 ≠ stepValue [0] [1] [drift] (fun _ => 0) (fun _ => 0) 0 := by
  obtain ⟨-, -, h3, h4⟩ := C91_partial F hF [0] [1] (by decide) [drift]
  have h0 : stepValue [0] [1] [drift] (fun _ => 0) (fun _ => 0) 0 = 1e-9 := by
    show assign [0] [1] (fun _ => 0) (fun _ => 0) 0 + 1e-9 = 1e-9
    simp [assign]
  obtain ⟨S, hS⟩ := (h4 (fun e he => by rw [List.mem_singleton.1 he]; exact drift_affine _ (by decide))).1 rfl (fun i hi => by
    obtain rfl : i = 0 := by have : i < 1 := hi; omega
    rw [h0]
    norm_num [abs_of_pos])
  refine ⟨S, hS, ?_⟩
  rw [h0]
  norm_num [Spec.affine]

/-- `x` solves `dx/dt = f(x, u)` on `[0, h]` with the constant input `w` -/
def SolvesSymbolic (x u : List ℕ) (f : List Expr) (w : ℕ → ℝ) (h : ℝ) (X : ℝ → ℕ → ℝ) : Prop :=
  ∀ t ∈ Set.Icc 0 h, ∀ i < x.length, HasDerivWithinAt (fun s => X s i) (stepValue x u f (X t) w i) (Set.Icc 0 h) t

/-- C92: discretizing symbolic continuous-time affine dynamics with distinct symbols.  With zero-order hold the state after one step is the value at
time `h` of the solution of the differential equation, which exists and is unique; with explicit Euler it is `x + h f(x, u)`; other methods raise
`ValueError`.  The same for `LinearSystem.from_symbolic_continuous` if the expressions vanish at the origin; it raises `ValueError` if one of them
is above `1e-8` there. -/
theorem C92 (F : Conv) (hF : ConvSpec F) (x u : List ℕ) (hX : (x ++ u).Nodup) (f : List Expr) (hA : ∀ e ∈ f, e.IsAffine (x ++ u))
    (hn : f.length = x.length) (h : ℝ) (hh : 0 ≤ h) :
    (∃ S, AffineSystem.from_symbolic_continuous F x u f h .zeroOrderHold = .ok S ∧ S.nx = x.length ∧ S.nu = u.length ∧
      Spec.SystemShape x.length u.length S.A S.B S.c ∧ ∀ v w : ℕ → ℝ,
        (∃ X, SolvesSymbolic x u f w h X ∧ ∀ i < x.length, X 0 i = v i) ∧
        ∀ X, SolvesSymbolic x u f w h X → (∀ i < x.length, X 0 i = v i) → ∀ i < x.length, X h i = Spec.affine S.A S.B S.c v w i) ∧
    (∃ S, AffineSystem.from_symbolic_continuous F x u f h .explicitEuler = .ok S ∧ S.nx = x.length ∧ S.nu = u.length ∧
      Spec.SystemShape x.length u.length S.A S.B S.c ∧ ∀ v w : ℕ → ℝ, ∀ i < x.length,
        Spec.affine S.A S.B S.c v w i = v i + h * stepValue x u f v w i) ∧
    AffineSystem.from_symbolic_continuous F x u f h .other = .error .valueError ∧
    ((∀ i < x.length, stepValue x u f (fun _ => 0) (fun _ => 0) i = 0) →
      (∃ S, LinearSystem.from_symbolic_continuous F x u f h .zeroOrderHold = .ok S ∧ S.nx = x.length ∧ S.nu = u.length ∧
        ∀ v w : ℕ → ℝ, (∃ X, SolvesSymbolic x u f w h X ∧ ∀ i < x.length, X 0 i = v i) ∧
          ∀ X, SolvesSymbolic x u f w h X → (∀ i < x.length, X 0 i = v i) → ∀ i < x.length,
            X h i = Spec.affine S.A S.B (Vec.zeros x.length) v w i) ∧
      (∃ S, LinearSystem.from_symbolic_continuous F x u f h .explicitEuler = .ok S ∧ S.nx = x.length ∧ S.nu = u.length ∧
        ∀ v w : ℕ → ℝ, ∀ i < x.length, Spec.affine S.A S.B (Vec.zeros x.length) v w i = v i + h * stepValue x u f v w i) ∧
      LinearSystem.from_symbolic_continuous F x u f h .other = .error .valueError) ∧
    ((∃ i < x.length, 1e-8 < |stepValue x u f (fun _ => 0) (fun _ => 0) i|) → ∀ m,
      LinearSystem.from_symbolic_continuous F x u f h m = .error .valueError) := by
  obtain ⟨A, B, c, hM⟩ := transition_affine hF hA
  obtain ⟨h1, h2, h3, h4, h5, h6⟩ := transition_step hF hX hM
  rw [hn] at h1 h3 h5 h6
  have hS : Spec.SystemShape x.length u.length A B c := ⟨h1, h2, h3, h4, h5⟩
  have ha : ∀ m, AffineSystem.from_symbolic_continuous F x u f h m = AffineSystem.from_continuous A B (.d1 c) h m := fun m => by
    unfold AffineSystem.from_symbolic_continuous
    rw [hM]
    rfl
  have hl : ∀ m, LinearSystem.from_symbolic_continuous F x u f h m =
      (checkNoOffset c x.length >>= fun _ => LinearSystem.from_continuous A B h m) := fun m => by
    unfold LinearSystem.from_symbolic_continuous
    rw [hM]
    rfl
  have zero : ∀ i < x.length, c.e i = stepValue x u f (fun _ => 0) (fun _ => 0) i := fun i hi => by
    rw [← h6 _ _ i hi]
    simp [Spec.affine]
  obtain ⟨⟨A1, B1, c1, p1, p2⟩, ⟨A2, B2, c2, q1, q2⟩, p3, ⟨A3, B3, c3, r1, r2, r3⟩, ⟨A4, B4, c4, s1, s2, s3⟩, s4⟩ := C83 x.length u.length A B c h hS hh
  have ode : ∀ w X, SolvesOde x.length A B c w h X ↔ SolvesSymbolic x u f w h X := fun w X => by
    refine forall_congr' fun t => forall_congr' fun _ => forall_congr' fun i => forall_congr' fun hi => ?_
    rw [h6 (X t) w i hi]
  refine ⟨?_, ?_, ?_, fun h0 => ?_, fun ⟨i, hi, h0⟩ m => ?_⟩
  · obtain ⟨A', B', c', k1, k2, k3⟩ := (C49 x.length u.length A B c hS).1 h hh
    rw [p1] at k1
    cases k1
    refine ⟨_, (ha _).trans p2, rfl, rfl, k2, fun v w => ?_⟩
    simp only [← ode]
    exact k3 v w
  · obtain ⟨A', B', c', k1, k2, k3⟩ := C48 x.length u.length A B c h hS hh
    rw [q1] at k1
    cases k1
    refine ⟨_, (ha _).trans q2, rfl, rfl, k2, fun v w i hi => ?_⟩
    rw [← h6 v w i hi]
    exact k3 v w i hi
  · rw [ha, p3]
  · have hc : ∀ i < x.length, c.e i = (Vec.zeros (K := ℝ) x.length).e i := fun i hi => (zero i hi).trans (h0 i hi)
    have hk : checkNoOffset c x.length = .ok () := if_pos ⟨h5, fun i hi => by rw [zero i (h5 ▸ hi), h0 i (h5 ▸ hi), abs_zero]; norm_num⟩
    have hS0 : Spec.SystemShape x.length u.length A B (Vec.zeros x.length) := ⟨h1, h2, h3, h4, rfl⟩
    have aff0 : ∀ v w, ∀ i < x.length, Spec.affine A B (Vec.zeros x.length) v w i = stepValue x u f v w i := fun v w i hi => by
      rw [← h6 v w i hi]
      unfold Spec.affine
      rw [hc i hi]
    refine ⟨?_, ?_, ?_⟩
    · obtain ⟨A', B', c', k1, k2, k3⟩ := (C49 x.length u.length A B _ hS0).1 h hh
      rw [r1] at k1
      cases k1
      refine ⟨_, by rw [hl, hk, Py.ok_bind, r3], rfl, rfl, fun v w => ?_⟩
      have ode0 : ∀ X, SolvesOde x.length A B (Vec.zeros x.length) w h X ↔ SolvesSymbolic x u f w h X := fun X => by
        refine forall_congr' fun t => forall_congr' fun _ => forall_congr' fun i => forall_congr' fun hi => ?_
        rw [aff0 (X t) w i hi]
      simp only [← ode0]
      refine ⟨(k3 v w).1, fun X hX' h0' i hi => ?_⟩
      rw [(k3 v w).2 X hX' h0' i hi]
      unfold Spec.affine
      rw [r2 i hi]
      rfl
    · obtain ⟨A', B', c', k1, k2, k3⟩ := C48 x.length u.length A B _ h hS0 hh
      rw [s1] at k1
      cases k1
      refine ⟨_, by rw [hl, hk, Py.ok_bind, s3], rfl, rfl, fun v w i hi => ?_⟩
      rw [← aff0 v w i hi, ← k3 v w i hi]
      unfold Spec.affine
      rw [s2 i hi]
      rfl
    · rw [hl, hk, Py.ok_bind, s4]
  · have : checkNoOffset c x.length = .error .valueError := if_neg fun hc => by
      have := hc.2 i (h5 ▸ hi)
      rw [zero i hi] at this
      exact absurd h0 (not_lt.2 this)
    rw [hl, this]
    rfl

/-- the double integrator `dx/dt = (y, u)`: the hypotheses hold -/
example : (([0, 1] : List ℕ) ++ [2]).Nodup ∧ (∀ e ∈ ([.sym 1, .sym 2] : List Expr), e.IsAffine ([0, 1] ++ [2])) ∧
    ∀ i < 2, stepValue [0, 1] [2] [.sym 1, .sym 2] (fun _ => 0) (fun _ => 0) i = 0 := by
  refine ⟨by decide, fun e he => ?_, fun i hi => ?_⟩
  · simp only [List.mem_cons, List.not_mem_nil, or_false] at he
    rcases he with rfl | rfl <;> exact .sym _ (by decide)
  · interval_cases i
    · simp [stepValue, assign, Expr.eval]
    · simp [stepValue, assign, Expr.eval]

end Verif.Props
