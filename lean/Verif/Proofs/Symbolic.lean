import Verif.Model.Symbolic
import Verif.Proofs.Gurobi
import Verif.Spec.Dyn
import Mathlib.Analysis.Calculus.MeanValue
import Mathlib.Data.List.GetD

/- Lemmas on symbolic expressions. -/
namespace Verif
open Finset
open Spec (Expr)
namespace Sympy

theorem eval_mkAdd (σ : ℕ → ℝ) (a b : Expr) : (mkAdd a b).eval σ = a.eval σ + b.eval σ := by
  unfold mkAdd
  split <;> (try split_ifs) <;> simp_all [Expr.eval]

theorem eval_mkMul (σ : ℕ → ℝ) (a b : Expr) : (mkMul a b).eval σ = a.eval σ * b.eval σ := by
  unfold mkMul
  split <;> (try split_ifs) <;> simp_all [Expr.eval]

/-- the value of `diff` is the derivative -/
theorem hasDerivAt_diff (s : ℕ) (σ : ℕ → ℝ) (t : ℝ) (e : Expr) :
    HasDerivAt (fun t => e.eval (Function.update σ s t)) ((diff s e).eval (Function.update σ s t)) t := by
  induction e with
  | num r => simpa [diff, Expr.eval] using hasDerivAt_const t r
  | sym k =>
    by_cases h : k = s
    · subst h; simpa [diff, Expr.eval] using hasDerivAt_id' t
    · simpa [diff, Expr.eval, h, Function.update_of_ne h] using hasDerivAt_const t (σ k)
  | add a b ha hb =>
    simp only [diff, eval_mkAdd, Expr.eval]
    exact ha.add hb
  | mul a b ha hb =>
    simp only [diff, eval_mkAdd, eval_mkMul, Expr.eval]
    exact ha.mul hb
  | pow a n ha =>
    simp only [diff, eval_mkMul, Expr.eval]
    exact ha.pow n
  | sin a ha =>
    simp only [diff, eval_mkMul, Expr.eval]
    exact ha.sin
  | cos a ha =>
    simp only [diff, eval_mkMul, Expr.eval]
    have := ha.cos
    convert this using 1
    ring
  | exp a ha =>
    simp only [diff, eval_mkMul, Expr.eval]
    exact ha.exp

/-- the values with the symbols in `X` set to zero -/
noncomputable def zeroed (X : List ℕ) (σ : ℕ → ℝ) (s : ℕ) : ℝ := if s ∈ X then 0 else σ s

theorem eval_subs0 (X : List ℕ) (σ : ℕ → ℝ) (e : Expr) : (subs0 X e).eval σ = e.eval (zeroed X σ) := by
  induction e with
  | num r => rfl
  | sym s => unfold subs0; split_ifs with h <;> simp [Expr.eval, zeroed, h]
  | add a b ha hb => simp only [subs0, eval_mkAdd, Expr.eval, ha, hb]
  | mul a b ha hb => simp only [subs0, eval_mkMul, Expr.eval, ha, hb]
  | pow a n ha => simp only [subs0, Expr.eval, ha]
  | sin a ha => simp only [subs0, Expr.eval, ha]
  | cos a ha => simp only [subs0, Expr.eval, ha]
  | exp a ha => simp only [subs0, Expr.eval, ha]

/-- a constant derivative -/
theorem eval_step {e : Expr} {s : ℕ} {a : ℝ} (h : ∀ σ, (diff s e).eval σ = a) (σ : ℕ → ℝ) :
    e.eval σ = e.eval (Function.update σ s 0) + a * σ s := by
  have hd : ∀ t, HasDerivAt (fun t => e.eval (Function.update σ s t) - a * t) 0 t := by
    intro t
    have h1 := hasDerivAt_diff s σ t e
    rw [h] at h1
    have h2 := h1.sub ((hasDerivAt_id t).const_mul a)
    simp only [mul_one, sub_self] at h2
    exact h2
  have hc := is_const_of_deriv_eq_zero (fun t => (hd t).differentiableAt) (fun t => (hd t).deriv) (σ s) 0
  simp only [Function.update_eq_self, mul_zero, sub_zero] at hc
  linarith

/-- constant derivatives with respect to several symbols -/
theorem eval_affine {e : Expr} : ∀ {X : List ℕ} {a : List ℝ}, X.Nodup → List.Forall₂ (fun s r => ∀ σ, (diff s e).eval σ = r) X a →
    ∀ σ, e.eval σ = e.eval (zeroed X σ) + ∑ j ∈ range X.length, a.getD j 0 * σ (X.getD j 0)
  | [], [], _, _, σ => by
    rw [show zeroed [] σ = σ from funext fun s => if_neg (List.not_mem_nil)]
    simp
  | s :: X, r :: a, hn, h, σ => by
    rw [List.forall₂_cons] at h
    obtain ⟨hs, hX⟩ := h
    obtain ⟨hsX, hn⟩ := List.nodup_cons.1 hn
    rw [eval_step hs σ, eval_affine hn hX (Function.update σ s 0), List.length_cons, Finset.sum_range_succ']
    have e1 : zeroed X (Function.update σ s 0) = zeroed (s :: X) σ := by
      funext t
      unfold zeroed
      by_cases h1 : t = s
      · subst h1; simp
      · simp [h1]
    have e2 : ∀ j ∈ range X.length, a.getD j 0 * Function.update σ s 0 (X.getD j 0) = (r :: a).getD (j + 1) 0 * σ ((s :: X).getD (j + 1) 0) := by
      intro j hj
      have hm : X.getD j 0 ∈ X := by
        rw [List.getD_eq_getElem _ _ (mem_range.1 hj)]; exact List.getElem_mem _
      have hne : X.getD j 0 ≠ s := fun h => hsX (h ▸ hm)
      rw [Function.update_of_ne hne]
      rfl
    rw [e1, Finset.sum_congr rfl e2]
    simp only [List.getD_cons_zero]
    ring

theorem mapM_forall₂ {α β : Type} {f : α → Py β} : ∀ {l : List α} {r : List β}, l.mapM f = .ok r → List.Forall₂ (fun a b => f a = .ok b) l r
  | [], r, h => by
    rw [List.mapM_nil] at h
    cases Except.ok.inj h
    exact .nil
  | a :: l, r, h => by
    rw [List.mapM_cons] at h
    obtain ⟨b, hb, h⟩ := Py.bind_eq_ok h
    obtain ⟨bs, hbs, h⟩ := Py.bind_eq_ok h
    cases Except.ok.inj h
    exact .cons hb (mapM_forall₂ hbs)

theorem forall₂_getD {α β : Type} {R : α → β → Prop} {l : List α} {r : List β} (h : List.Forall₂ R l r) (x : α) (y : β) :
    ∀ i < l.length, R (l.getD i x) (r.getD i y) := by
  induction h with
  | nil => intro i hi; exact absurd hi (Nat.not_lt_zero i)
  | cons h1 _ ih =>
    intro i hi
    cases i with
    | zero => exact h1
    | succ i => exact ih i (Nat.lt_of_succ_lt_succ hi)

theorem jacobian_ok {F : Conv} {X : List ℕ} {expr : List Expr} {A : Mat ℝ} (h : jacobian F X expr = .ok A) :
    A.nr = expr.length ∧ A.nc = X.length ∧ ∀ i < expr.length, ∀ j < X.length, F.float (diff (X.getD j 0) (expr.getD i (.num 0))) = .ok (A.e i j) := by
  unfold jacobian at h
  obtain ⟨rows, hr, h⟩ := Py.bind_eq_ok h
  cases Except.ok.inj h
  refine ⟨rfl, rfl, fun i hi j hj => ?_⟩
  exact forall₂_getD (mapM_forall₂ (forall₂_getD (mapM_forall₂ hr) (.num 0) [] i hi)) 0 0 j hj

theorem atZero_ok {F : Conv} {X : List ℕ} {expr : List Expr} {b : Vec ℝ} (h : atZero F X expr = .ok b) :
    b.n = expr.length ∧ ∀ i < expr.length, F.float (subs0 X (expr.getD i (.num 0))) = .ok (b.e i) := by
  unfold atZero at h
  obtain ⟨v, hv, h⟩ := Py.bind_eq_ok h
  cases Except.ok.inj h
  exact ⟨rfl, forall₂_getD (mapM_forall₂ hv) (.num 0) 0⟩

/-- constant derivatives, with the values in an array -/
theorem eval_array {F : Conv} (hF : ConvSpec F) {X : List ℕ} (hX : X.Nodup) {e : Expr} {a : ℕ → ℝ} (ha : ∀ j < X.length, F.float (diff (X.getD j 0) e) = .ok (a j))
    {b : ℝ} (hb : F.float (subs0 X e) = .ok b) (σ : ℕ → ℝ) : e.eval σ = ∑ j ∈ range X.length, a j * σ (X.getD j 0) + b := by
  have h : List.Forall₂ (fun s r => ∀ σ, (diff s e).eval σ = r) X ((List.range X.length).map a) := by
    rw [List.forall₂_iff_get]
    refine ⟨by simp, fun i h1 h2 => ?_⟩
    have := ha i h1
    rw [List.getD_eq_getElem _ _ h1] at this
    simpa using hF.sound _ _ this
  rw [eval_affine hX h σ, ← eval_subs0, hF.sound _ _ hb, add_comm]
  congr 1
  refine Finset.sum_congr rfl fun j hj => ?_
  rw [List.getD_eq_getElem _ _ (by simpa using hj)]
  simp

theorem mkAdd_num (r s : ℝ) : mkAdd (.num r) (.num s) = .num (r + s) := rfl

theorem diff_affine {X : List ℕ} {e : Expr} (h : Expr.IsAffine X e) (s : ℕ) : ∃ r, diff s e = .num r := by
  induction h with
  | num r => exact ⟨0, rfl⟩
  | sym t => exact ⟨_, rfl⟩
  | add _ _ ha hb =>
    obtain ⟨a, ha⟩ := ha
    obtain ⟨b, hb⟩ := hb
    exact ⟨a + b, by rw [diff, ha, hb]; rfl⟩
  | @mulLeft r a _ ha =>
    obtain ⟨k, hk⟩ := ha
    refine ⟨0 + r * k, ?_⟩
    have h0 : mkMul (.num 0) a = .num 0 := by
      cases a <;> simp [mkMul]
    rw [diff, hk, show diff s (.num r) = .num 0 from rfl, h0]
    rfl
  | @mulRight r a _ ha =>
    obtain ⟨k, hk⟩ := ha
    refine ⟨k * r + 0, ?_⟩
    have h0 : mkMul a (.num 0) = .num 0 := by
      cases a <;> simp [mkMul]
    rw [diff, hk, show diff s (.num r) = .num 0 from rfl, h0]
    rfl

theorem subs0_affine {X Y : List ℕ} (hXY : ∀ s ∈ X, s ∈ Y) {e : Expr} (h : Expr.IsAffine X e) : ∃ r, subs0 Y e = .num r := by
  induction h with
  | num r => exact ⟨r, rfl⟩
  | sym t ht => exact ⟨0, by rw [subs0, if_pos (hXY t ht)]⟩
  | add _ _ ha hb =>
    obtain ⟨a, ha⟩ := ha
    obtain ⟨b, hb⟩ := hb
    exact ⟨a + b, by rw [subs0, ha, hb]; rfl⟩
  | @mulLeft r a _ ha =>
    obtain ⟨k, hk⟩ := ha
    exact ⟨r * k, by rw [subs0, hk]; rfl⟩
  | @mulRight r a _ ha =>
    obtain ⟨k, hk⟩ := ha
    exact ⟨k * r, by rw [subs0, hk]; rfl⟩

theorem mapM_exists {α β : Type} {f : α → Py β} : ∀ {l : List α}, (∀ a ∈ l, ∃ b, f a = .ok b) → ∃ r, l.mapM f = .ok r
  | [], _ => ⟨[], rfl⟩
  | a :: l, h => by
    obtain ⟨b, hb⟩ := h a List.mem_cons_self
    obtain ⟨r, hr⟩ := mapM_exists (l := l) fun a ha => h a (List.mem_cons_of_mem _ ha)
    exact ⟨b :: r, by rw [List.mapM_cons, hb, Py.ok_bind, hr]; rfl⟩

theorem jacobian_affine {F : Conv} (hF : ConvSpec F) (X : List ℕ) {Y : List ℕ} {expr : List Expr} (h : ∀ e ∈ expr, Expr.IsAffine Y e) : ∃ A, jacobian F X expr = .ok A := by
  have h1 : ∀ e ∈ expr, ∃ r, (X.mapM fun s => F.float (diff s e)) = .ok r := fun e he => mapM_exists fun s _ => by
    obtain ⟨r, hr⟩ := diff_affine (h e he) s
    exact ⟨r, by rw [hr, hF.num]⟩
  obtain ⟨rows, hr⟩ := mapM_exists h1
  exact ⟨_, by unfold jacobian; rw [hr]; rfl⟩

theorem atZero_affine {F : Conv} (hF : ConvSpec F) {X : List ℕ} {Y : List ℕ} (hYX : ∀ s ∈ Y, s ∈ X) {expr : List Expr} (h : ∀ e ∈ expr, Expr.IsAffine Y e) :
    ∃ b, atZero F X expr = .ok b := by
  obtain ⟨v, hv⟩ := mapM_exists (f := fun e => F.float (subs0 X e)) fun e he => by
    obtain ⟨r, hr⟩ := subs0_affine hYX (h e he)
    exact ⟨r, by rw [hr, hF.num]⟩
  exact ⟨_, by unfold atZero; rw [hv]; rfl⟩

/-- the contract of `float` can be met -/
theorem exists_conv : ∃ F, ConvSpec F := by
  classical
  refine ⟨⟨fun e => if h : ∃ r, ∀ σ, e.eval σ = r then .ok h.choose else .error .typeError⟩, fun r => ?_, fun e r h => ?_, fun e err h => ?_⟩
  · have h : ∃ r', ∀ σ, (Expr.num r).eval σ = r' := ⟨r, fun _ => rfl⟩
    simp only
    rw [dif_pos h]
    exact congrArg Except.ok (h.choose_spec fun _ => 0).symm
  · simp only at h
    split_ifs at h with h1
    cases Except.ok.inj h
    exact h1.choose_spec
  · simp only at h
    split_ifs at h
    exact (Except.error.inj h).symm

end Sympy
end Verif

namespace Verif
open Finset
open Spec (Expr)
namespace Sympy

theorem mapM_error {α β : Type} {f : α → Py β} : ∀ {l : List α} {e : PyErr}, l.mapM f = .error e → ∃ a ∈ l, f a = .error e
  | [], e, h => by rw [List.mapM_nil] at h; cases h
  | a :: l, e, h => by
    rw [List.mapM_cons] at h
    cases ha : f a with
    | error e' =>
      rw [ha] at h
      cases h
      exact ⟨a, List.mem_cons_self, ha⟩
    | ok b =>
      rw [ha, Py.ok_bind] at h
      cases hl : l.mapM f with
      | error e' =>
        rw [hl] at h
        cases h
        obtain ⟨a', h1, h2⟩ := mapM_error hl
        exact ⟨a', List.mem_cons_of_mem _ h1, h2⟩
      | ok bs => rw [hl] at h; cases h

theorem jacobian_error {F : Conv} (hF : ConvSpec F) {X : List ℕ} {expr : List Expr} {err : PyErr} (h : jacobian F X expr = .error err) : err = .typeError := by
  unfold jacobian at h
  cases hr : expr.mapM fun e => X.mapM fun s => F.float (diff s e) with
  | ok rows => rw [hr] at h; cases h
  | error e' =>
    rw [hr] at h
    cases h
    obtain ⟨e, -, he⟩ := mapM_error hr
    obtain ⟨s, -, hs⟩ := mapM_error he
    exact hF.error _ _ hs

theorem atZero_error {F : Conv} (hF : ConvSpec F) {X : List ℕ} {expr : List Expr} {err : PyErr} (h : atZero F X expr = .error err) : err = .typeError := by
  unfold atZero at h
  cases hr : expr.mapM fun e => F.float (subs0 X e) with
  | ok rows => rw [hr] at h; cases h
  | error e' =>
    rw [hr] at h
    cases h
    obtain ⟨e, -, he⟩ := mapM_error hr
    exact hF.error _ _ he

theorem matrices_ok {F : Conv} (hF : ConvSpec F) {X : List ℕ} (hX : X.Nodup) {expr : List Expr} {A : Mat ℝ} {b : Vec ℝ}
    (h : get_matrices_affine_expression F X expr = .ok (A, b)) : A.nr = expr.length ∧ A.nc = X.length ∧ b.n = expr.length ∧
      ∀ i < expr.length, ∀ σ, (expr.getD i (.num 0)).eval σ = ∑ j ∈ range A.nc, A.e i j * σ (X.getD j 0) - b.e i := by
  unfold get_matrices_affine_expression at h
  obtain ⟨A', hA, h⟩ := Py.bind_eq_ok h
  obtain ⟨b', hb, h⟩ := Py.bind_eq_ok h
  obtain ⟨rfl, rfl⟩ := Prod.mk.inj (Except.ok.inj h)
  obtain ⟨a1, a2, a3⟩ := jacobian_ok hA
  obtain ⟨b1, b2⟩ := atZero_ok hb
  refine ⟨a1, a2, b1, fun i hi σ => ?_⟩
  rw [eval_array hF hX (fun j hj => a3 i hi j hj) (b2 i hi) σ, a2]
  show _ = _ - - b'.e i
  ring

theorem matrices_error {F : Conv} (hF : ConvSpec F) {X : List ℕ} {expr : List Expr} {err : PyErr}
    (h : get_matrices_affine_expression F X expr = .error err) : err = .typeError := by
  unfold get_matrices_affine_expression at h
  cases hA : jacobian F X expr with
  | error e => rw [hA] at h; cases h; exact jacobian_error hF hA
  | ok A =>
    rw [hA, Py.ok_bind] at h
    cases hb : atZero F X expr with
    | error e => rw [hb] at h; cases h; exact atZero_error hF hb
    | ok b => rw [hb] at h; cases h

theorem matrices_affine {F : Conv} (hF : ConvSpec F) {X : List ℕ} {expr : List Expr} (h : ∀ e ∈ expr, Expr.IsAffine X e) :
    ∃ A b, get_matrices_affine_expression F X expr = .ok (A, b) := by
  obtain ⟨A, hA⟩ := jacobian_affine hF X h
  obtain ⟨b, hb⟩ := atZero_affine hF (X := X) (fun _ h => h) h
  exact ⟨A, b.neg, by unfold get_matrices_affine_expression; rw [hA, Py.ok_bind, hb]; rfl⟩

theorem transition_ok {F : Conv} (hF : ConvSpec F) {x u : List ℕ} (hX : (x ++ u).Nodup) {expr : List Expr} {A B : Mat ℝ} {c : Vec ℝ}
    (h : Dyn.get_state_transition_matrices F x u expr = .ok (A, B, c)) :
    A.nr = expr.length ∧ A.nc = x.length ∧ B.nr = expr.length ∧ B.nc = u.length ∧ c.n = expr.length ∧
      ∀ i < expr.length, ∀ σ, (expr.getD i (.num 0)).eval σ = Spec.affine A B c (fun j => σ (x.getD j 0)) (fun j => σ (u.getD j 0)) i := by
  unfold Dyn.get_state_transition_matrices at h
  obtain ⟨A', hA, h⟩ := Py.bind_eq_ok h
  obtain ⟨B', hB, h⟩ := Py.bind_eq_ok h
  obtain ⟨c', hc, h⟩ := Py.bind_eq_ok h
  obtain ⟨rfl, h'⟩ := Prod.mk.inj (Except.ok.inj h)
  obtain ⟨rfl, rfl⟩ := Prod.mk.inj h'
  obtain ⟨a1, a2, a3⟩ := jacobian_ok hA
  obtain ⟨b1, b2, b3⟩ := jacobian_ok hB
  obtain ⟨c1, c2⟩ := atZero_ok hc
  have hl : ∀ j < x.length, (x ++ u).getD j 0 = x.getD j 0 := fun j hj => by
    rw [List.getD_append _ _ _ _ hj]
  have hr : ∀ j, (x ++ u).getD (x.length + j) 0 = u.getD j 0 := fun j => by
    rw [List.getD_append_right _ _ _ _ (by omega)]
    congr 1
    omega
  refine ⟨a1, a2, b1, b2, c1, fun i hi σ => ?_⟩
  rw [eval_array hF hX (a := fun j => if j < x.length then A'.e i j else B'.e i (j - x.length)) (fun j hj => ?_) (c2 i hi) σ]
  · unfold Spec.affine
    rw [List.length_append, sum_range_add, a2, b2]
    congr 2
    · refine Finset.sum_congr rfl fun j hj => ?_
      rw [if_pos (mem_range.1 hj), hl j (mem_range.1 hj)]
    · refine Finset.sum_congr rfl fun j _ => ?_
      rw [if_neg (by omega), hr, Nat.add_sub_cancel_left]
  · by_cases hj' : j < x.length
    · rw [hl j hj', if_pos hj']
      exact a3 i hi j hj'
    · obtain ⟨k, rfl⟩ : ∃ k, j = x.length + k := ⟨j - x.length, by omega⟩
      rw [hr, if_neg hj', Nat.add_sub_cancel_left]
      exact b3 i hi k (by rw [List.length_append] at hj; omega)

theorem transition_affine {F : Conv} (hF : ConvSpec F) {x u : List ℕ} {expr : List Expr} (h : ∀ e ∈ expr, Expr.IsAffine (x ++ u) e) :
    ∃ A B c, Dyn.get_state_transition_matrices F x u expr = .ok (A, B, c) := by
  obtain ⟨A, hA⟩ := jacobian_affine hF x h
  obtain ⟨B, hB⟩ := jacobian_affine hF u h
  obtain ⟨c, hc⟩ := atZero_affine hF (X := x ++ u) (fun _ h => h) h
  exact ⟨A, B, c, by unfold Dyn.get_state_transition_matrices; rw [hA, Py.ok_bind, hB, Py.ok_bind, hc]; rfl⟩

theorem transition_error {F : Conv} (hF : ConvSpec F) {x u : List ℕ} {expr : List Expr} {err : PyErr}
    (h : Dyn.get_state_transition_matrices F x u expr = .error err) : err = .typeError := by
  unfold Dyn.get_state_transition_matrices at h
  cases hA : jacobian F x expr with
  | error e => rw [hA] at h; cases h; exact jacobian_error hF hA
  | ok A =>
    rw [hA, Py.ok_bind] at h
    cases hB : jacobian F u expr with
    | error e => rw [hB] at h; cases h; exact jacobian_error hF hB
    | ok B =>
      rw [hB, Py.ok_bind] at h
      cases hb : atZero F (x ++ u) expr with
      | error e => rw [hb] at h; cases h; exact atZero_error hF hb
      | ok b => rw [hb] at h; cases h

end Sympy
end Verif
