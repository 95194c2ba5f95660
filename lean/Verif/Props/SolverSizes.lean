import Verif.Props.Solvers
import Verif.Model.Drake

/- The sizes accepted by the default solvers (C121). -/
namespace Verif.Props
open Finset

theorem lpData_err {N : ℕ} {f : Vec ℝ} {AC : Mat ℝ} {bd : Vec ℝ} (hN : AC.nr = N) (h : ¬ (bd.n = N ∧ f.n = AC.nc)) :
    Pnnls.lpData N f AC bd = .error .valueError := by
  subst hN
  have e1 : np.concatenate [bd, Vec.zeros AC.nr] = .ok (bd.append (Vec.zeros AC.nr)) := by
    simp [np.concatenate, Vec.concat]
  have e2 : np.hstack [(Mat.zeros AC.nr AC.nr : Mat ℝ), Mat.eye AC.nr]
      = .ok ((Mat.zeros AC.nr AC.nr).happ (Mat.eye AC.nr)) := by
    simp [np.hstack, np.hstack2]
  have e3 : np.hstack [AC.T, Mat.zeros AC.nc AC.nr] = .ok (AC.T.happ (Mat.zeros AC.nc AC.nr)) := by
    simp [np.hstack, np.hstack2]
  simp only [Pnnls.lpData, e1, e2, e3, Py.ok_bind]
  by_cases hb : bd.n = AC.nr
  · have hf : ¬ f.n = AC.nc := fun hf => h ⟨hb, hf⟩
    have e4 : np.vstack [Mat.ofRow (bd.append (Vec.zeros AC.nr)), (Mat.zeros AC.nr AC.nr).happ (Mat.eye AC.nr), AC.T.happ (Mat.zeros AC.nc AC.nr)]
        = .ok (lpA AC bd) := by
      simp [np.vstack, np.vstack2, lpA, hb]
    have e5 : np.vstack [Mat.ofRow f, AC, Mat.zeros AC.nc AC.nc] = .error .valueError := by
      simp [np.vstack, np.vstack2, hf]
    rw [e4, Py.ok_bind, e5]
    rfl
  · have e4 : np.vstack [Mat.ofRow (bd.append (Vec.zeros AC.nr)), (Mat.zeros AC.nr AC.nr).happ (Mat.eye AC.nr), AC.T.happ (Mat.zeros AC.nc AC.nr)]
        = .error .valueError := by
      simp [np.vstack, np.vstack2, hb]
    rw [e4]
    rfl

theorem lp_after_stack {L : Lib} (hL : LibSpec L) {f : Vec ℝ} {A : Mat ℝ} {b : Vec ℝ} {C : Option (Mat ℝ)} {d : Option (Vec ℝ)} {q : ℕ} {AC : Mat ℝ}
    {bd : Vec ℝ} (hst : Pnnls.stackEqualities A b C d = .ok (q, AC, bd)) (hnr : AC.nr = A.nr + 2 * q) (tol : ℝ) :
    (bd.n = AC.nr ∧ f.n = AC.nc → 0 < AC.nr → ∃ s, Pnnls.linear_program L f A b C d tol = .ok s) ∧
    (bd.n = AC.nr ∧ f.n = AC.nc → AC.nr = 0 → Pnnls.linear_program L f A b C d tol = .error .runtimeError) ∧
    (¬ (bd.n = AC.nr ∧ f.n = AC.nc) → Pnnls.linear_program L f A b C d tol = .error .valueError) := by
  refine ⟨?_, ?_, ?_⟩
  · rintro ⟨hb, hf⟩ h0
    obtain ⟨ys, x, r, h1, h2, h3, h4, h5, h6, h7⟩ := lp_core hL hb hf
    replace h1 := h1 h0
    unfold Pnnls.linear_program
    simp only [hst, Py.ok_bind]
    rw [← hnr, lpData_ok hb hf]
    simp only [Py.ok_bind, h1]
    by_cases hr : r < tol
    · simp only [if_pos hr]
      have e1 : np.dotVV f x = .ok (Spec.lpCost f x) := if_pos (by rw [h3, hf])
      rw [e1]
      simp only [Py.ok_bind]
      by_cases hq : q > 0
      · have : (ys.slice A.nr (A.nr + q)).n = (ys.slice (A.nr + q) AC.nr).neg.n := by
          simp; omega
        simp only [if_pos hq, np.addV, if_pos this, Py.ok_bind]
        exact ⟨_, rfl⟩
      · simp only [if_neg hq]
        exact ⟨_, rfl⟩
    · simp only [if_neg hr]
      exact ⟨_, rfl⟩
  · rintro ⟨hb, hf⟩ h0
    unfold Pnnls.linear_program
    simp only [hst, Py.ok_bind]
    rw [← hnr, lpData_ok hb hf]
    simp only [Py.ok_bind, lp_core_none hL hb hf h0, Py.error_bind]
  · intro h
    unfold Pnnls.linear_program
    simp only [hst, Py.ok_bind]
    rw [lpData_err hnr (by rw [← hnr]; exact h)]
    rfl

/-- C121, what holds for `linear_program`: it raises `ValueError` if one of `C` and `d` is missing.  Without equalities it answers if the sizes fit and there is an
inequality, raises `RuntimeError` if the sizes fit and there is none, and `ValueError` if the sizes do not fit.  With equalities it answers if the numbers of columns fit and the entries of `b` and twice those of `d` are as many as the rows of
`A` and twice those of `C`, and raises `ValueError` otherwise.

Missing with respect to C121: an error for sizes of `b` and `d` that fit together but not one by one, which is false (`C121_false`). -/
theorem C121_partial (L : Lib) (hL : LibSpec L) (f : Vec ℝ) (A : Mat ℝ) (b : Vec ℝ) (C : Option (Mat ℝ)) (d : Option (Vec ℝ)) (tol : ℝ) :
    (C.isNone ≠ d.isNone → Pnnls.linear_program L f A b C d tol = .error .valueError) ∧
    ((C = none ∧ d = none ∨ ∃ C' d', C = some C' ∧ d = some d' ∧ C'.nr = 0) →
      ((f.n = A.nc ∧ b.n = A.nr → 0 < A.nr → ∃ s, Pnnls.linear_program L f A b C d tol = .ok s) ∧
       (f.n = A.nc ∧ b.n = A.nr → A.nr = 0 → Pnnls.linear_program L f A b C d tol = .error .runtimeError) ∧
       (¬ (f.n = A.nc ∧ b.n = A.nr) → Pnnls.linear_program L f A b C d tol = .error .valueError))) ∧
    ∀ C' d', C = some C' → d = some d' → 0 < C'.nr →
      ((f.n = A.nc ∧ C'.nc = A.nc ∧ b.n + 2 * d'.n = A.nr + 2 * C'.nr → ∃ s, Pnnls.linear_program L f A b C d tol = .ok s) ∧
       (¬ (f.n = A.nc ∧ C'.nc = A.nc ∧ b.n + 2 * d'.n = A.nr + 2 * C'.nr) → Pnnls.linear_program L f A b C d tol = .error .valueError)) := by
  refine ⟨fun h => ?_, fun h => ?_, fun C' d' hC hd h0 => ?_⟩
  · have : Pnnls.stackEqualities A b C d = .error .valueError := by
      cases C <;> cases d <;> simp at h <;> rfl
    unfold Pnnls.linear_program
    rw [this]
    rfl
  · have hst : Pnnls.stackEqualities A b C d = .ok (0, A, b) := by
      rcases h with ⟨rfl, rfl⟩ | ⟨C', d', rfl, rfl, h⟩
      · rfl
      · exact if_neg (by omega)
    obtain ⟨h1, h3, h2⟩ := lp_after_stack hL (f := f) hst rfl tol
    exact ⟨fun h => h1 h.symm, fun h => h3 h.symm, fun h => h2 fun h' => h h'.symm⟩
  · subst hC hd
    by_cases hc : C'.nc = A.nc
    · have hst : Pnnls.stackEqualities A b (some C') (some d') = .ok (C'.nr, A.vapp (C'.vapp C'.neg), b.append (d'.append d'.neg)) := by
        have e1 : np.vstack [A, C', C'.neg] = .ok (A.vapp (C'.vapp C'.neg)) := by
          simp [np.vstack, np.vstack2, hc]
        have e2 : np.concatenate [b, d', d'.neg] = .ok (b.append (d'.append d'.neg)) := by
          simp [np.concatenate, Vec.concat]
        simp only [Pnnls.stackEqualities, if_pos h0, e1, e2, Py.ok_bind]
        rfl
      obtain ⟨h1, -, h2⟩ := lp_after_stack hL (f := f) hst (by simp; omega) tol
      have e1 : (b.append (d'.append d'.neg)).n = b.n + (d'.n + d'.n) := rfl
      have e2 : (A.vapp (C'.vapp C'.neg)).nr = A.nr + (C'.nr + C'.nr) := rfl
      have e3 : (A.vapp (C'.vapp C'.neg)).nc = A.nc := rfl
      rw [e1, e2, e3] at h1 h2
      exact ⟨fun h => h1 ⟨by omega, h.1⟩ (by omega), fun h => h2 fun h' => h ⟨h'.2, hc, by omega⟩⟩
    · refine ⟨fun h => absurd h.2.1 hc, fun _ => ?_⟩
      have e1 : np.vstack [A, C', C'.neg] = .error .valueError := by
        simp [np.vstack, np.vstack2, Ne.symm hc]
      unfold Pnnls.linear_program
      simp only [Pnnls.stackEqualities, if_pos h0, e1, Py.error_bind]

/-- two bounds for one inequality -/
example (L : Lib) (hL : LibSpec L) : Pnnls.linear_program L ⟨1, fun _ => 1⟩ ⟨1, 1, fun _ _ => 1⟩ ⟨2, fun _ => 0⟩ none none = .error .valueError :=
  ((C121_partial L hL _ _ _ _ _ _).2.1 (Or.inl ⟨rfl, rfl⟩)).2.2 (by simp)

/-- no constraints at all -/
example (L : Lib) (hL : LibSpec L) : Pnnls.linear_program L ⟨1, fun _ => 0⟩ ⟨0, 1, fun _ _ => 0⟩ ⟨0, fun _ => 0⟩ none none = .error .runtimeError :=
  ((C121_partial L hL _ _ _ _ _ _).2.1 (Or.inl ⟨rfl, rfl⟩)).2.1 ⟨rfl, rfl⟩ rfl

theorem bind_congr_ok {α β : Type} {m : Py α} {f g : α → Py β} (h : ∀ a, m = .ok a → f a = g a) : (m >>= f) = (m >>= g) := by
  cases m with
  | error e => rfl
  | ok a => exact h a rfl

/-- C121 is false of the code for `quadratic_program`: one bound for several inequalities is accepted, the answer is the one with the bound repeated. -/
theorem C121_one_bound (L : Lib) (H : Mat ℝ) (f : Vec ℝ) (A : Mat ℝ) (b : Vec ℝ) (hb : b.n = 1) (hA : A.nr ≠ 1) (tol : ℝ) :
    Pnnls.quadratic_program L H f A b none none tol = Pnnls.quadratic_program L H f A ⟨A.nr, fun _ => b.e 0⟩ none none tol := by
  have key : ∀ v : Vec ℝ, v.n = A.nr → np.addV b v = np.addV ⟨A.nr, fun _ => b.e 0⟩ v := by
    intro v hv
    rw [show np.addV (⟨A.nr, fun _ => b.e 0⟩ : Vec ℝ) v = .ok (Vec.add ⟨A.nr, fun _ => b.e 0⟩ v) from if_pos hv.symm]
    unfold np.addV
    rw [if_neg (by omega)]
    unfold np.broadcastV
    rw [if_neg (by omega), if_pos hb, hv]
    rfl
  unfold Pnnls.quadratic_program
  simp only [show ∀ b : Vec ℝ, Pnnls.stackEqualities A b none none = .ok (0, A, b) from fun _ => rfl, Py.ok_bind]
  refine bind_congr_ok fun F _ => bind_congr_ok fun Li _ => bind_congr_ok fun Hi _ => bind_congr_ok fun M _ => bind_congr_ok fun ACH h1 =>
    bind_congr_ok fun v h2 => ?_
  have hv : v.n = A.nr := by
    unfold np.dotMM at h1
    unfold np.dotMV at h2
    split_ifs at h1 h2
    obtain rfl := Except.ok.inj h1
    obtain rfl := Except.ok.inj h2
    rfl
  rw [key v hv]

/-- C121, what holds for `quadratic_program` with a positive definite `H`, without equalities: it answers if the sizes of `f` and `A` fit, there are as many bounds
as inequalities or a single one, and there is an inequality; it raises `RuntimeError` if only the last condition fails, and `ValueError` if the sizes do not fit. -/
theorem C121_qp_partial (L : Lib) (hL : LibSpec L) (n : ℕ) (H : Mat ℝ) (hH : Spec.SymPosDef n H) (f : Vec ℝ) (A : Mat ℝ) (b : Vec ℝ) (tol : ℝ) (htol : 0 < tol) :
    (f.n = n ∧ A.nc = n ∧ (b.n = A.nr ∨ b.n = 1) → 0 < A.nr → ∃ s, Pnnls.quadratic_program L H f A b none none tol = .ok s) ∧
    (f.n = n ∧ A.nc = n ∧ (b.n = A.nr ∨ b.n = 1) → A.nr = 0 → Pnnls.quadratic_program L H f A b none none tol = .error .runtimeError) ∧
    (¬ (f.n = n ∧ A.nc = n ∧ (b.n = A.nr ∨ b.n = 1)) → Pnnls.quadratic_program L H f A b none none tol = .error .valueError) := by
  refine ⟨?_, ?_, ?_⟩
  · rintro ⟨hf, hA, hb⟩ h0
    have key : ∀ b : Vec ℝ, b.n = A.nr → ∃ s, Pnnls.quadratic_program L H f A b none none tol = .ok s := fun b hb => by
      rcases qp_answer hL hH hf (show Spec.ConstrShape n A b none none from ⟨hA, hb⟩) (.inl h0) htol.le with h | ⟨x, lam, mu, h, -⟩
      · exact ⟨_, h⟩
      · exact ⟨_, h⟩
    by_cases h : b.n = A.nr
    · exact key b h
    · have h1 := hb.resolve_left h
      rw [C121_one_bound L H f A b h1 (by omega)]
      exact key _ rfl
  · rintro ⟨hf, hA, hb⟩ h0
    have key : ∀ b : Vec ℝ, b.n = A.nr → Pnnls.quadratic_program L H f A b none none tol = .error .runtimeError := fun b hb => by
      obtain ⟨_, _, _, _, _, _, _, -, -, -, -, -, -, -, -, h⟩ := qp_run hL hH hf (show Spec.ConstrShape n A b none none from ⟨hA, hb⟩) tol
      refine h ?_
      rintro (h | ⟨C', h, -⟩)
      · omega
      · cases h
    by_cases h : b.n = A.nr
    · exact key b h
    · have h1 := hb.resolve_left h
      rw [C121_one_bound L H f A b h1 (by omega)]
      exact key _ rfl
  · intro h
    have hPD := posDef_asM hH
    obtain ⟨F, hF, hFr, hFc, hFF⟩ := hL.chol_ok H (by rw [hH.nr, hH.nc]) (by rw [hH.nr]; exact hPD)
    rw [hH.nr] at hFr hFc hFF
    have hdet : (F.asM n n).det ≠ 0 := by
      have h2 : (H.asM n n).det ≠ 0 := (Matrix.isUnit_iff_isUnit_det _).1 hPD.isUnit |>.ne_zero
      rw [← hFF, Matrix.det_mul, Matrix.det_transpose] at h2
      exact fun h => h2 (by rw [h, zero_mul])
    have hinv := np_inv_ok hFr hFc hdet
    set Li := Mat.ofM (F.asM n n)⁻¹ with hLi
    unfold Pnnls.quadratic_program
    simp only [show Pnnls.stackEqualities A b none none = .ok (0, A, b) from rfl, Py.ok_bind, hF, hinv]
    rw [show np.dotMM Li.T Li = .ok (Li.T.mul Li) from if_pos rfl, Py.ok_bind]
    by_cases hA : A.nc = n
    swap
    · rw [show np.dotMM A Li.T = .error .valueError from if_neg hA]
      rfl
    rw [show np.dotMM A Li.T = .ok (A.mul Li.T) from if_pos hA, Py.ok_bind, show np.dotMM A (Li.T.mul Li) = .ok (A.mul (Li.T.mul Li)) from if_pos hA, Py.ok_bind]
    by_cases hf : f.n = n
    swap
    · rw [show np.dotMV (A.mul (Li.T.mul Li)) f = .error .valueError from if_neg (Ne.symm hf)]
      rfl
    rw [show np.dotMV (A.mul (Li.T.mul Li)) f = .ok _ from if_pos hf.symm, Py.ok_bind]
    generalize hv : (A.mul (Li.T.mul Li)).mulVec f = v
    have hvn : v.n = A.nr := by rw [← hv]; rfl
    have hb : b.n ≠ A.nr ∧ b.n ≠ 1 := by
      constructor <;> intro hb <;> exact h ⟨hf, hA, by tauto⟩
    unfold np.addV
    rw [if_neg (by rw [hvn]; exact hb.1)]
    unfold np.broadcastV
    by_cases h1 : v.n = 1
    · rw [if_pos h1, Py.ok_bind]
      have : np.vstack [(A.mul Li.T).T.neg, Mat.ofRow (Vec.neg ⟨b.n, fun i => b.e i + v.e 0⟩)] = .error .valueError := by
        show np.vstack2 _ _ = _
        exact if_neg (show ¬ A.nr = b.n from Ne.symm hb.1)
      rw [this]
      rfl
    · rw [if_neg h1, if_neg hb.2]
      rfl

/-- three bounds for two inequalities -/
example (L : Lib) (hL : LibSpec L) (H : Mat ℝ) (hH : Spec.SymPosDef 1 H) :
    Pnnls.quadratic_program L H ⟨1, fun _ => 1⟩ ⟨2, 1, fun _ _ => 1⟩ ⟨3, fun _ => 0⟩ none none = .error .valueError :=
  (C121_qp_partial L hL 1 H hH _ _ _ _ (by norm_num)).2.2 (by simp)

/-- C121 is false of the code: `linear_program` accepts one bound for three inequalities together with two right-hand sides for one equality, and
`quadratic_program` one bound for two inequalities. -/
theorem C121_false : ∀ L, LibSpec L →
    (∃ (f : Vec ℝ) (A : Mat ℝ) (b : Vec ℝ) (C : Mat ℝ) (d : Vec ℝ), A.nr = 3 ∧ b.n = 1 ∧ C.nr = 1 ∧ d.n = 2 ∧
      ∃ s, Pnnls.linear_program L f A b (some C) (some d) = .ok s) ∧
    ∃ (H : Mat ℝ) (f : Vec ℝ) (A : Mat ℝ) (b : Vec ℝ), Spec.SymPosDef 1 H ∧ A.nr = 2 ∧ b.n = 1 ∧
      ∃ s x, Pnnls.quadratic_program L H f A b none none = .ok s ∧ s.argmin = some x := by
  intro L hL
  constructor
  · exact ⟨⟨1, fun _ => 1⟩, ⟨3, 1, fun _ _ => 1⟩, ⟨1, fun _ => 0⟩, ⟨1, 1, fun _ _ => 1⟩, ⟨2, fun _ => 0⟩, rfl, rfl, rfl, rfl,
      ((C121_partial L hL _ _ _ _ _ _).2.2 _ _ rfl rfl Nat.zero_lt_one).1 ⟨rfl, rfl, rfl⟩⟩
  · have hH : Spec.SymPosDef 1 (⟨1, 1, fun _ _ => 2⟩ : Mat ℝ) := by
      refine ⟨rfl, rfl, fun _ _ _ _ => rfl, ?_⟩
      rintro x ⟨i, hi, hx⟩
      have : i = 0 := by omega
      subst this
      have := mul_self_pos.2 hx
      simp
      nlinarith
    refine ⟨⟨1, 1, fun _ _ => 2⟩, ⟨1, fun _ => 0⟩, ⟨2, 1, fun i _ => if i = 0 then 1 else -1⟩, ⟨1, fun _ => 0⟩, hH, rfl, rfl, ?_⟩
    rw [C121_one_bound L _ _ _ ⟨1, fun _ => 0⟩ rfl (by simp)]
    obtain ⟨s, h1, h2, -⟩ := (C35 L hL 1 _ ⟨1, fun _ => 0⟩ ⟨2, 1, fun i _ => if i = 0 then 1 else -1⟩ ⟨2, fun _ => 0⟩ none none hH rfl ⟨rfl, rfl⟩
      1e-7 (by norm_num) (fun _ => 0) (by simp)).1 (.inl (by norm_num))
    have hne : s.min ≠ none := by
      rw [Ne, h2]
      rintro (h | ⟨x, hx, hd⟩)
      · exact h ⟨1, fun _ => 0⟩ ⟨by simp [Spec.Ineqs], trivial⟩
      · have a1 := hx.1.1 0 (by norm_num)
        have a2 := hx.1.1 1 (by norm_num)
        simp at a1 a2
        have hx0 : x.e 0 = 0 := by linarith
        simp [hx0] at hd
        norm_num at hd
    cases hm : s.min with
    | none => exact absurd hm hne
    | some m =>
      obtain ⟨x, -, -, k, -⟩ := C34 L hL 1 _ ⟨1, fun _ => 0⟩ ⟨2, 1, fun i _ => if i = 0 then 1 else -1⟩ ⟨2, fun _ => 0⟩ none none hH rfl ⟨rfl, rfl⟩ 1e-7 (by norm_num) s h1 m hm
      exact ⟨s, x, h1, k⟩

/-- C121 for the drake backend: both programs raise `ValueError` if one of `C` and `d` is missing, whatever the solver would find. -/
theorem C121_drake (L : Lib) (found : Option (Vec ℝ)) (H : Mat ℝ) (f : Vec ℝ) (A : Mat ℝ) (b : Vec ℝ) (C : Option (Mat ℝ)) (d : Option (Vec ℝ)) (tol : ℝ)
    (h : C = none ∧ d ≠ none ∨ C ≠ none ∧ d = none) :
    Drake.linear_program L found f A b C d tol = .error .valueError ∧ Drake.quadratic_program found H f A b C d tol = .error .valueError := by
  have h' : C.isNone ≠ d.isNone := by
    cases C <;> cases d <;> simp at h ⊢
  exact ⟨if_pos h', if_pos h'⟩

/-- an equality without its right-hand side -/
example (L : Lib) (x : Vec ℝ) : Drake.linear_program L (some x) ⟨1, fun _ => 1⟩ ⟨1, 1, fun _ _ => -1⟩ ⟨1, fun _ => 0⟩ (some ⟨1, 1, fun _ _ => 1⟩) none = .error .valueError :=
  (C121_drake L (some x) ⟨1, 1, fun _ _ => 1⟩ _ _ _ _ _ _ (Or.inr ⟨by simp, rfl⟩)).1

end Verif.Props
