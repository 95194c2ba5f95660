import Verif.Props.MpQPAll
import Verif.Props.MpQPRaises

/-
Feasible parameters that the regions of `explicit_solve` of `/repo/pympc/optimization/parametric_programs.py` do not cover (C122).
-/
namespace Verif.Props
open Finset Verif.MpQP

variable {nu nx : ℕ} {q : MpQP}

/-! ### the search starts at a parameter without feasible points -/

/-- min u² / 2 s.t. u ≤ 1, 2 - x ≤ u -/
noncomputable def apart : Spec.ParamQP :=
  ⟨⟨1, 1, fun _ _ => 1⟩, ⟨1, 1, fun _ _ => 0⟩, ⟨1, 1, fun _ _ => 0⟩, ⟨1, fun _ => 0⟩, ⟨1, fun _ => 0⟩, 0,
   ⟨2, 1, fun i _ => if i = 0 then 1 else -1⟩, ⟨2, 1, fun i _ => if i = 0 then 0 else -1⟩, ⟨2, fun i => if i = 0 then 1 else -2⟩⟩

theorem apart_shape : apart.Shape 1 1 := by
  refine ⟨⟨rfl, rfl, fun _ _ _ _ => rfl, ?_⟩, rfl, rfl, rfl, rfl, rfl, rfl, rfl, rfl, rfl, rfl⟩
  rintro x ⟨i, hi, hx⟩
  have : i = 0 := by omega
  subst this
  have := mul_self_pos.2 hx
  simp [apart]
  nlinarith

/-- C122 is false: on this program `explicit_solve` returns no region at all, since there is no feasible point at the parameter `0`, where the search starts.  For each parameter `x ≥ 2`, for
instance, `0` is the optimizer, and `solve` returns it. -/
theorem C122_false (L : Lib) (hL : LibSpec L) : ∃ q : MpQP, q.Made ∧ q.data.Shape 1 1 ∧ 0 < q.Au.nr ∧
    (∀ fuel ≥ 2, q.explicit_solve L fuel = .ok (some [])) ∧
    ∀ x : Vec ℝ, x.n = 1 → 2 ≤ x.e 0 → ∃ (s : Sol) (u : Vec ℝ), q.solve L x = .ok s ∧ s.argmin = some u ∧ u.e 0 = 0 ∧ q.data.Opt 1 1 u.e x.e := by
  obtain ⟨q, -, hm, hd⟩ := init_made apart_shape
  have hs : q.data.Shape 1 1 := by rw [hd]; exact apart_shape
  have hA : q.Au.nr = 2 := congrArg (fun P : Spec.ParamQP => P.Au.nr) hd
  have hH : q.Huu.e 0 0 = 1 := congrArg (fun P : Spec.ParamQP => P.Huu.e 0 0) hd
  have hb0 : q.data.b.e 0 = 1 := by rw [hd]; rfl
  have hb1 : q.data.b.e 1 = -2 := by rw [hd]; rfl
  have hl0 : ∀ u x, q.data.lhs 1 1 0 u x = u 0 := fun u x => by rw [hd]; simp [Spec.ParamQP.lhs, apart]
  have hl1 : ∀ u x, q.data.lhs 1 1 1 u x = -u 0 - x 0 := fun u x => by rw [hd]; simp [Spec.ParamQP.lhs, apart]; ring
  have hlag : ∀ u x p, q.data.lagrangian 1 1 u x p 0 = u 0 + p 0 - p 1 := fun u x p => by
    rw [hd]; simp [Spec.ParamQP.lagrangian, apart, Finset.sum_range_succ]; ring
  have hl : q.data.Licq 1 [] := fun w _ k hk => by simp at hk
  refine ⟨q, hm, hs, by omega, fun fuel hfuel => ?_, fun x hx hx2 => ?_⟩
  · obtain ⟨fuel, rfl⟩ : ∃ f, fuel = f + 2 := ⟨fuel - 2, by omega⟩
    have hzero : (Vec.zeros q.fx.n : Vec ℝ).n = 1 := hs.fx
    have hz0 : (Vec.zeros q.fx.n : Vec ℝ).e 0 = 0 := rfl
    have hinf : ∀ u, ¬ q.data.Feas 1 1 u (Vec.zeros q.fx.n : Vec ℝ).e := by
      intro u hu
      have h0 := hu 0 (by show 0 < q.Au.nr; omega)
      have h1 := hu 1 (by show 1 < q.Au.nr; omega)
      rw [hl0, hb0] at h0
      rw [hl1, hb1, hz0] at h1
      linarith
    have hAx : q.Ax.nr = 2 := congrArg (fun P : Spec.ParamQP => P.Ax.nr) hd
    have hnc : q.Ax.nc = 1 := congrArg (fun P : Spec.ParamQP => P.Ax.nc) hd
    have hi0 : q.inactive [] = [0, 1] := by simp [inactive, hAx, List.range_succ]
    have hk : ∀ x : ℕ → ℝ, q.fu' [] 1 x 0 = 0 := by
      intro x
      obtain ⟨k1, -⟩ := (fCr_kkt hm hs (a := []) (by simp) hl x).2.2 (fun _ => 0) (fun _ => 0) (by
        intro j hj
        obtain rfl : j = 0 := by omega
        rw [hlag]; ring) (by simp) (by simp)
      exact (k1 0 (by norm_num)).symm
    have h5 := fun x : ℝ => fAcr_con (a := []) hm hs (fun _ => x) 1
    simp only [hi0, show ([0, 1] : List ℕ).getD 1 0 = 1 from rfl, hl1, hk, show q.b.e 1 = -2 from hb1, Finset.sum_range_one, List.length_nil, Nat.zero_add] at h5
    have e1 := h5 0
    have e2 := h5 1
    have a1 : (q.fAcr []).e 1 0 = -1 := by linarith
    have hrun : q.explicit_solve_given_active_set [] = .ok (some (q.fCr [])) := explicit_some hm hs (by simp) hl
    have hcon : (q.fCr []).contains (Vec.zeros q.fx.n) ≠ .ok true := by
      intro h
      obtain ⟨r, h1, h2⟩ := contains_fCr hm hs hl (by omega) hzero
      rw [h] at h1
      cases h1
      have := (h2.1 rfl).2 1 (by rw [hi0]; simp)
      have ht : slackTol ((q.fAcr []).row 1) = 1e-7 := by
        unfold slackTol vnorm
        rw [show ((q.fAcr []).row 1).n = 1 from hnc, Finset.sum_range_one, show ((q.fAcr []).row 1).e 0 = -1 from a1]
        norm_num
      rw [hi0, show ([0, 1] : List ℕ).getD 1 0 = 1 from rfl, hl1, hk, show q.b.e 1 = -2 from hb1, hz0, List.length_nil, Nat.zero_add, ht] at this
      norm_num at this
    have hpoint : q.explicit_solve_given_point L (Vec.zeros q.fx.n) (some []) = .ok none := by
      obtain ⟨-, g2, g3, -⟩ := C44_partial L hL 1 1 q hm hs one_pos (by omega) _ hzero
      rw [g2 [] (by simp) fun cr hcr => by
        rw [hrun] at hcr
        cases hcr
        exact hcon]
      rcases g3 with ⟨s, -, -, h⟩ | ⟨u, -, -, -, -, -, -, h, -⟩
      · exact h
      · exact absurd h.1 (hinf _)
    show explore L q 1e-5 (fuel + 2) _ _ = _
    unfold explore
    rw [show uncovered [] [((Vec.zeros q.fx.n : Vec ℝ), ([] : List ℕ))] = .ok [(Vec.zeros q.fx.n, [])] from rfl, Py.ok_bind]
    simp only [hpoint, Py.ok_bind]
    rfl
  · have hkkt : q.data.KKT 1 1 (fun _ => 0) (fun _ => 0) x.e := by
      refine ⟨fun i hi => ?_, fun j hj => ?_, fun i hi => le_rfl, fun i hi => by simp⟩
      · have hi : i < q.Au.nr := hi
        rw [hA] at hi
        interval_cases i
        · rw [hl0, hb0]; norm_num
        · rw [hl1, hb1]; linarith
      · obtain rfl : j = 0 := by omega
        rw [hlag]; ring
    obtain ⟨s, h1, h2, h3, -⟩ := (C45_partial L hL 1 1 q hs x hx (fun _ => 0) (by
      intro j hj
      obtain rfl : j = 0 := by omega
      rw [hlag]; ring)).1 (by omega)
    obtain ⟨o1, o2⟩ := opt_of_kkt hs hkkt
    cases hmin : s.min with
    | none =>
      exfalso
      rcases h3.1 hmin with h4 | ⟨v, h4, h5⟩
      · exact h4 _ o1.1
      · rw [Finset.sum_range_one, Finset.sum_range_one, hH, o2 v h4.1 (h4.2 _ o1.1) 0 (by norm_num)] at h5
        norm_num at h5
    | some m =>
      obtain ⟨u, lam, k1, k2, k3, k4, -⟩ := h2 m hmin
      exact ⟨s, u, h1, k1, (k4 _ o1 0 (by norm_num)).symm, k3⟩

/-! ### a region narrower than the step -/

/-- min u² / 2 s.t. x - 1 ≤ u, 2 x - 2 - 4e-6 ≤ u -/
noncomputable def narrow : Spec.ParamQP :=
  ⟨⟨1, 1, fun _ _ => 1⟩, ⟨1, 1, fun _ _ => 0⟩, ⟨1, 1, fun _ _ => 0⟩, ⟨1, fun _ => 0⟩, ⟨1, fun _ => 0⟩, 0,
   ⟨2, 1, fun _ _ => -1⟩, ⟨2, 1, fun i _ => if i = 0 then 1 else 2⟩, ⟨2, fun i => if i = 0 then 1 else 2 + 4e-6⟩⟩

theorem narrow_shape : narrow.Shape 1 1 := by
  refine ⟨⟨rfl, rfl, fun _ _ _ _ => rfl, ?_⟩, rfl, rfl, rfl, rfl, rfl, rfl, rfl, rfl, rfl, rfl⟩
  rintro x ⟨i, hi, hx⟩
  have : i = 0 := by omega
  subst this
  have := mul_self_pos.2 hx
  simp [narrow]
  nlinarith

/-- the program above -/
structure IsNarrow (q : MpQP) : Prop where
  made : q.Made
  shape : q.data.Shape 1 1
  nr : q.Au.nr = 2
  Ax_nr : q.Ax.nr = 2
  Ax_nc : q.Ax.nc = 1
  H : q.Huu.e 0 0 = 1
  Au : ∀ i, q.data.Au.e i 0 = -1
  b0 : q.b.e 0 = 1
  b1 : q.b.e 1 = 2 + 4e-6
  lhs0 : ∀ u x, q.data.lhs 1 1 0 u x = -u 0 + x 0
  lhs1 : ∀ u x, q.data.lhs 1 1 1 u x = -u 0 + 2 * x 0
  lag : ∀ u x p, q.data.lagrangian 1 1 u x p 0 = u 0 - p 0 - p 1

theorem narrow_made : ∃ q, IsNarrow q := by
  obtain ⟨q, -, hm, hd⟩ := init_made narrow_shape
  refine ⟨q, hm, by rw [hd]; exact narrow_shape, congrArg (fun P : Spec.ParamQP => P.Au.nr) hd, congrArg (fun P : Spec.ParamQP => P.Ax.nr) hd,
    congrArg (fun P : Spec.ParamQP => P.Ax.nc) hd, congrArg (fun P : Spec.ParamQP => P.Huu.e 0 0) hd, fun i => by rw [hd]; rfl,
    congrArg (fun P : Spec.ParamQP => P.b.e 0) hd, congrArg (fun P : Spec.ParamQP => P.b.e 1) hd, fun u x => ?_, fun u x => ?_, fun u x p => ?_⟩
  · rw [hd]; simp [Spec.ParamQP.lhs, narrow]
  · rw [hd]; simp [Spec.ParamQP.lhs, narrow]
  · rw [hd]; simp [Spec.ParamQP.lagrangian, narrow, Finset.sum_range_succ]; ring

namespace IsNarrow

/-- the sets of independent constraints -/
theorem cases (h : IsNarrow q) {a : List ℕ} (ha : ∀ i ∈ a, i < q.Au.nr) (hl : q.data.Licq 1 a) : a = [] ∨ a = [0] ∨ a = [1] := by
  match a, ha, hl with
  | [], _, _ => exact .inl rfl
  | [i], ha, _ =>
    have := ha i (by simp)
    rw [h.nr] at this
    interval_cases i
    · exact .inr (.inl rfl)
    · exact .inr (.inr rfl)
  | i :: j :: l, ha, hl =>
    exfalso
    have := hl (fun k => if k = 0 then 1 else if k = 1 then -1 else 0) (fun k hk => ?_) 0 (by simp)
    · simp at this
    · obtain rfl : k = 0 := by omega
      simp only [List.length_cons, h.Au]
      rw [Finset.sum_range_succ', Finset.sum_range_succ']
      simp

theorem licq_nil (_h : IsNarrow q) : q.data.Licq 1 [] := fun w _ k hk => by simp at hk

theorem licq_one (h : IsNarrow q) (i : ℕ) : q.data.Licq 1 [i] := by
  intro w hw k hk
  have := hw 0 (by norm_num)
  simp only [List.length_singleton, Finset.sum_range_one, h.Au] at this
  obtain rfl : k = 0 := by simpa using hk
  linarith

theorem sol_nil (h : IsNarrow q) (x : ℕ → ℝ) : q.fu' [] 1 x 0 = 0 := by
  obtain ⟨k1, -⟩ := (fCr_kkt h.made h.shape (a := []) (by simp) h.licq_nil x).2.2 (fun _ => 0) (fun _ => 0) (by
    intro j hj
    obtain rfl : j = 0 := by omega
    rw [h.lag]; ring) (by simp) (by simp)
  exact (k1 0 (by norm_num)).symm

theorem sol_zero (h : IsNarrow q) (x : ℕ → ℝ) : q.fu' [0] 1 x 0 = x 0 - 1 ∧ q.fp' [0] 1 x 0 = x 0 - 1 := by
  obtain ⟨k1, k2⟩ := (fCr_kkt h.made h.shape (a := [0]) (by simp [h.nr]) (h.licq_one 0) x).2.2 (fun _ => x 0 - 1) (fun i => if i = 0 then x 0 - 1 else 0) (by
    intro j hj
    obtain rfl : j = 0 := by omega
    rw [h.lag]; simp) (by
    intro i hi
    obtain rfl : i = 0 := by simpa using hi
    rw [h.lhs0, h.b0]; ring) (by
    intro i _ hi
    have : i ≠ 0 := by simpa using hi
    simp [this])
  exact ⟨(k1 0 (by norm_num)).symm, by simpa using (k2 0 (by rw [h.nr]; norm_num)).symm⟩

theorem sol_one (h : IsNarrow q) (x : ℕ → ℝ) : q.fu' [1] 1 x 0 = 2 * x 0 - 2 - 4e-6 ∧ q.fp' [1] 1 x 1 = 2 * x 0 - 2 - 4e-6 := by
  obtain ⟨k1, k2⟩ := (fCr_kkt h.made h.shape (a := [1]) (by simp [h.nr]) (h.licq_one 1) x).2.2 (fun _ => 2 * x 0 - 2 - 4e-6)
    (fun i => if i = 1 then 2 * x 0 - 2 - 4e-6 else 0) (by
    intro j hj
    obtain rfl : j = 0 := by omega
    rw [h.lag]; simp) (by
    intro i hi
    obtain rfl : i = 1 := by simpa using hi
    rw [h.lhs1, h.b1]; ring) (by
    intro i _ hi
    have : i ≠ 1 := by simpa using hi
    simp [this])
  exact ⟨(k1 0 (by norm_num)).symm, by simpa using (k2 1 (by rw [h.nr]; norm_num)).symm⟩

/-- the scaled rows of a region -/
theorem row (h : IsNarrow q) {a : List ℕ} (ha : ∀ i ∈ a, i < q.Au.nr) (hl : q.data.Licq 1 a) {i : ℕ} (hi : i < 2) {α β : ℝ}
    (h1 : (q.fAcr a).e i 0 = α) (h2 : (q.fBcr a).e i = β) (hα : 1e-7 < |α|) :
    (q.fCr a).polyhedron.A.e i 0 = α / |α| ∧ (q.fCr a).polyhedron.b.e i = β / |α| := by
  have hnr : (q.fPoly a).A.nr = 2 := by
    show a.length + (q.inactive a).length = 2
    rw [length_inactive h.shape ha (licq_nodup hl), h.nr]
  have v : vnorm ((q.fPoly a).A.row i) = |α| := by
    unfold vnorm
    rw [show ((q.fPoly a).A.row i).n = 1 from h.Ax_nc, Finset.sum_range_one, show ((q.fPoly a).A.row i).e 0 = α from h1, Real.sqrt_sq_eq_abs]
  obtain ⟨c1, c2⟩ := normalize_row (p := q.fPoly a) (i := i) (by omega)
  have c1' := c1 0
  rw [v, if_pos hα] at c1' c2
  rw [show (q.fPoly a).A.e i 0 = α from h1] at c1'
  rw [show (q.fPoly a).b.e i = β from h2] at c2
  exact ⟨c1', c2⟩

/-- the region without active constraints: `x ≤ 1`, `x ≤ 1 + 2e-6` -/
theorem rows_nil (h : IsNarrow q) : ((q.fCr []).polyhedron.A.e 0 0 = 1 ∧ (q.fCr []).polyhedron.b.e 0 = 1) ∧
    (q.fCr []).polyhedron.A.e 1 0 = 1 ∧ (q.fCr []).polyhedron.b.e 1 = 1 + 2e-6 := by
  have hi0 : q.inactive [] = [0, 1] := by simp [inactive, h.Ax_nr, List.range_succ]
  constructor
  · have h5 := fun x : ℝ => fAcr_con (a := []) h.made h.shape (fun _ => x) 0
    simp only [hi0, show ([0, 1] : List ℕ).getD 0 0 = 0 from rfl, h.lhs0, h.sol_nil, h.b0, Finset.sum_range_one, List.length_nil, Nat.zero_add] at h5
    have e1 := h5 0
    have e2 := h5 1
    obtain ⟨c1, c2⟩ := h.row (a := []) (by simp) h.licq_nil (i := 0) (by norm_num) (α := 1) (β := 1) (by linarith) (by linarith) (by norm_num)
    rw [c1, c2]; norm_num
  · have h5 := fun x : ℝ => fAcr_con (a := []) h.made h.shape (fun _ => x) 1
    simp only [hi0, show ([0, 1] : List ℕ).getD 1 0 = 1 from rfl, h.lhs1, h.sol_nil, h.b1, Finset.sum_range_one, List.length_nil, Nat.zero_add] at h5
    have e1 := h5 0
    have e2 := h5 1
    obtain ⟨c1, c2⟩ := h.row (a := []) (by simp) h.licq_nil (i := 1) (by norm_num) (α := 2) (β := 2 + 4e-6) (by linarith) (by linarith) (by norm_num)
    rw [c1, c2]; norm_num

/-- the region of the second constraint: `1 + 2e-6 ≤ x`, `1 + 4e-6 ≤ x` -/
theorem rows_one (h : IsNarrow q) : ((q.fCr [1]).polyhedron.A.e 0 0 = -1 ∧ (q.fCr [1]).polyhedron.b.e 0 = -(1 + 2e-6)) ∧
    (q.fCr [1]).polyhedron.A.e 1 0 = -1 ∧ (q.fCr [1]).polyhedron.b.e 1 = -(1 + 4e-6) := by
  have hi1 : q.inactive [1] = [0] := by simp [inactive, h.Ax_nr, List.range_succ]
  constructor
  · have h5 := fun x : ℝ => fAcr_mul (a := [1]) h.shape (h.licq_one 1) (fun _ => x) (k := 0) (by simp)
    simp only [show ([1] : List ℕ).getD 0 0 = 1 from rfl, (h.sol_one _).2, Finset.sum_range_one] at h5
    have e1 := h5 0
    have e2 := h5 1
    obtain ⟨c1, c2⟩ := h.row (a := [1]) (by simp [h.nr]) (h.licq_one 1) (i := 0) (by norm_num) (α := -2) (β := -2 - 4e-6) (by linarith) (by linarith) (by norm_num)
    rw [c1, c2]; norm_num
  · have h5 := fun x : ℝ => fAcr_con (a := [1]) h.made h.shape (fun _ => x) 0
    simp only [hi1, show ([0] : List ℕ).getD 0 0 = 0 from rfl, h.lhs0, (h.sol_one _).1, h.b0, Finset.sum_range_one, List.length_singleton, Nat.add_zero] at h5
    have e1 := h5 0
    have e2 := h5 1
    obtain ⟨c1, c2⟩ := h.row (a := [1]) (by simp [h.nr]) (h.licq_one 1) (i := 1) (by norm_num) (α := -1) (β := -1 - 4e-6) (by linarith) (by linarith) (by norm_num)
    rw [c1, c2]; norm_num

/-- the region of the first constraint: `1 ≤ x`, `x ≤ 1 + 4e-6` -/
theorem rows_zero (h : IsNarrow q) : ((q.fCr [0]).polyhedron.A.e 0 0 = -1 ∧ (q.fCr [0]).polyhedron.b.e 0 = -1) ∧
    (q.fCr [0]).polyhedron.A.e 1 0 = 1 ∧ (q.fCr [0]).polyhedron.b.e 1 = 1 + 4e-6 := by
  have hi1 : q.inactive [0] = [1] := by simp [inactive, h.Ax_nr, List.range_succ]
  constructor
  · have h5 := fun x : ℝ => fAcr_mul (a := [0]) h.shape (h.licq_one 0) (fun _ => x) (k := 0) (by simp)
    simp only [show ([0] : List ℕ).getD 0 0 = 0 from rfl, (h.sol_zero _).2, Finset.sum_range_one] at h5
    have e1 := h5 0
    have e2 := h5 1
    obtain ⟨c1, c2⟩ := h.row (a := [0]) (by simp [h.nr]) (h.licq_one 0) (i := 0) (by norm_num) (α := -1) (β := -1) (by linarith) (by linarith) (by norm_num)
    rw [c1, c2]; norm_num
  · have h5 := fun x : ℝ => fAcr_con (a := [0]) h.made h.shape (fun _ => x) 0
    simp only [hi1, show ([1] : List ℕ).getD 0 0 = 1 from rfl, h.lhs1, (h.sol_zero _).1, h.b1, Finset.sum_range_one, List.length_singleton, Nat.add_zero] at h5
    have e1 := h5 0
    have e2 := h5 1
    obtain ⟨c1, c2⟩ := h.row (a := [0]) (by simp [h.nr]) (h.licq_one 0) (i := 1) (by norm_num) (α := 1) (β := 1 + 4e-6) (by linarith) (by linarith) (by norm_num)
    rw [c1, c2]; norm_num

/-- when a region is found to contain a parameter -/
theorem contains_iff (h : IsNarrow q) {a : List ℕ} (ha : ∀ i ∈ a, i < q.Au.nr) (hl : q.data.Licq 1 a) {x : Vec ℝ} (hx : x.n = 1) :
    ∃ r, (q.fCr a).contains x = .ok r ∧ (r = true ↔ ∀ i < 2, (q.fCr a).polyhedron.A.e i 0 * x.e 0 - (q.fCr a).polyhedron.b.e i ≤ 1e-7) := by
  have hnr : (q.fCr a).polyhedron.A.nr = 2 := by
    rw [show (q.fCr a).polyhedron.A.nr = a.length + (q.inactive a).length from (C07 1 _ (fPoly_inv (a := a) h.shape) 1e-7 (by norm_num)).2.1,
      length_inactive h.shape ha (licq_nodup hl), h.nr]
  have hC : (q.fCr a).polyhedron.C.nr = 0 := (C07 1 _ (fPoly_inv (a := a) h.shape) 1e-7 (by norm_num)).2.2.1
  obtain ⟨b, b1, b2⟩ := Props.contains_iff (fCr_inv (a := a) h.shape) (by omega) x hx 1e-7
  refine ⟨b, b1, b2.trans ?_⟩
  rw [hC, hnr]
  simp

/-- outside the narrow region, the region found at a point is not the narrow one, and the multipliers are clear -/
theorem outside (h : IsNarrow q) {L : Lib} (hL : LibSpec L) {x : Vec ℝ} (hx : x.n = 1) (hout : x.e 0 ≤ 1 - 5e-6 ∨ 1 + 1e-5 ≤ x.e 0) :
    (∀ (g a : List ℕ), (∀ j ∈ g, j < q.Au.nr) → (∀ j ∈ a, j < q.Au.nr) → q.data.Licq 1 a →
      q.explicit_solve_given_point L x (some g) = .ok (some (q.fCr a)) → a = [] ∨ a = [1]) ∧
    ∀ (u lam : ℕ → ℝ), q.data.KKT 1 1 u lam x.e → lam 0 = 0 ∧ (1e-7 < lam 1 ∨ lam 1 = 0) := by
  have hkkt : ∀ (u lam : ℕ → ℝ), q.data.KKT 1 1 u lam x.e → lam 0 = 0 ∧ (1e-7 < lam 1 ∨ lam 1 = 0) := by
    intro u lam hk
    have h0 : 0 < q.data.Au.nr := by show 0 < q.Au.nr; rw [h.nr]; norm_num
    have h1 : 1 < q.data.Au.nr := by show 1 < q.Au.nr; rw [h.nr]; norm_num
    have st := hk.stat 0 (by norm_num)
    have f0 := hk.feas 0 h0
    have f1 := hk.feas 1 h1
    have n0 := hk.nonneg 0 h0
    have n1 := hk.nonneg 1 h1
    have c0 := hk.compl 0 h0
    have c1 := hk.compl 1 h1
    rw [h.lag] at st
    rw [h.lhs0, show q.data.b.e 0 = 1 from h.b0] at f0 c0
    rw [h.lhs1, show q.data.b.e 1 = 2 + 4e-6 from h.b1] at f1 c1
    rcases hout with ho | ho
    · constructor
      · rcases mul_eq_zero.1 c0 with e | e
        · exact e
        · norm_num at ho; linarith
      · right
        rcases mul_eq_zero.1 c1 with e | e
        · exact e
        · norm_num at ho e; linarith
    · have e0 : lam 0 = 0 := by
        rcases mul_eq_zero.1 c0 with e | e
        · exact e
        · norm_num at ho f1; linarith
      refine ⟨e0, .inl ?_⟩
      norm_num at ho f1 ⊢
      linarith
  refine ⟨fun g a hg ha hl hp => ?_, hkkt⟩
  have hne : a ≠ [0] := by
    rintro rfl
    obtain ⟨g1, g2, g3, -⟩ := C44_partial L hL 1 1 q h.made h.shape one_pos (by rw [h.nr]; norm_num) x hx
    by_cases hgc : ∃ c : CritReg, q.explicit_solve_given_active_set g = .ok (some c) ∧ c.contains x = .ok true
    · obtain ⟨c, c1, c2⟩ := hgc
      rw [g1 _ c c1 c2] at hp
      cases hp
      obtain ⟨r, r1, r2⟩ := h.contains_iff ha hl hx
      rw [c2] at r1
      cases r1
      obtain ⟨⟨a0, b0⟩, a1, b1⟩ := h.rows_zero
      have e0 := r2.1 rfl 0 (by norm_num)
      have e1 := r2.1 rfl 1 (by norm_num)
      rw [a0, b0] at e0
      rw [a1, b1] at e1
      rcases hout with ho | ho
      · norm_num at ho e0; linarith
      · norm_num at ho e1; linarith
    · rw [g2 g hg fun c c1 c2 => hgc ⟨c, c1, c2⟩] at hp
      rcases g3 with ⟨s, -, -, h3⟩ | ⟨u, lam, s, act, -, -, -, -, h4, -, -, h6, h7, h8⟩
      · rw [h3] at hp; cases hp
      · by_cases hla : q.data.Licq 1 act
        · obtain ⟨c, c1, -, c3, -⟩ := h8 hla
          rw [c1] at hp
          cases hp
          have h9 : 0 ∈ act := by rw [← c3]; show 0 ∈ [0]; simp
          have := ((h6 0).1 h9).2
          rw [(hkkt _ _ h4).1] at this
          norm_num at this
        · rw [h7 hla] at hp; cases hp
  rcases h.cases ha hl with h | h | h
  · exact .inl h
  · exact absurd h hne
  · exact .inr h

/-- the search never steps into the narrow region -/
theorem reached (h : IsNarrow q) {L : Lib} (hL : LibSpec L) {xa : Vec ℝ × List ℕ} (hr : Reached L q 1e-5 xa) :
    xa.1.e 0 ≤ 1 - 5e-6 ∨ 1 + 1e-5 ≤ xa.1.e 0 := by
  induction hr with
  | start => left; show (0 : ℝ) ≤ _; norm_num
  | @next xa ya cr cr' l h1 h2 h3 h4 ih =>
    obtain ⟨-, a, i, rfl, ha, hl, hi, hval⟩ := step_from hL h.made h.shape h2 h3 h4
    rw [h.nr] at hi
    rw [hval]
    rcases (h.outside hL (reached_size h.made h.shape h1) ih).1 _ a (reached_guess hL h.made h.shape h1) ha hl h2 with rfl | rfl
    · right
      obtain ⟨⟨a0, b0⟩, a1, b1⟩ := h.rows_nil
      interval_cases i
      · rw [a0, b0]; norm_num
      · rw [a1, b1]; norm_num
    · left
      obtain ⟨⟨a0, b0⟩, a1, b1⟩ := h.rows_one
      interval_cases i
      · rw [a0, b0]; norm_num
      · rw [a1, b1]; norm_num

end IsNarrow

/-- C122 is false also when the search starts at a feasible parameter: on this program the search ends without an exception, and no region of the result contains the parameters between
`1 + 1e-6` and `1 + 3e-6`, whose optimizer is `x - 1`.  The region of the first constraint is narrower than the step of `1e-5`, and the search steps over it from both sides. -/
theorem C122_narrow_false (L : Lib) (hL : LibSpec L) : ∃ q : MpQP, q.Made ∧ q.data.Shape 1 1 ∧ 0 < q.Au.nr ∧ (∃ u, q.data.Feas 1 1 u fun _ => 0) ∧
    ∃ N, ∀ fuel ≥ N, ∃ sol : ExplicitSolution, q.explicit_solve L fuel = .ok (some sol) ∧ ∀ x : Vec ℝ, x.n = 1 → 1 + 1e-6 ≤ x.e 0 → x.e 0 ≤ 1 + 3e-6 →
      q.data.Opt 1 1 (fun _ => x.e 0 - 1) x.e ∧ ∀ cr ∈ sol, cr.contains x = .ok false := by
  obtain ⟨q, h⟩ := narrow_made
  have hA := h.nr
  have hcr : ∀ xa, Reached L q 1e-5 xa → ∀ cr : CritReg, q.explicit_solve_given_point L xa.1 (some xa.2) = .ok (some cr) → cr = q.fCr [] ∨ cr = q.fCr [1] := by
    intro xa hxa cr hp
    obtain ⟨a, hrun⟩ := point_from hp
    obtain ⟨ha, hl, rfl⟩ := explicit_cases h.made h.shape hrun
    rcases (h.outside hL (reached_size h.made h.shape hxa) (h.reached hL hxa)).1 _ a (reached_guess hL h.made h.shape hxa) ha hl hp with rfl | rfl
    · exact .inl rfl
    · exact .inr rfl
  obtain ⟨N, hN⟩ := C84_partial L hL 1 1 q h.made h.shape one_pos (by omega) 1e-5 (by
    intro xa hxa hx s lam h1 h2 i hi
    rcases solveThenExplicit_run hL h.made h.shape (by omega) hx with ⟨s1, -⟩ | ⟨u, lam', s', s1, s2, s3, s4, s5, s6, s7, -⟩
    · rw [h1] at s1; cases s1; cases h2
    · rw [h1] at s1
      cases s1
      rw [h2] at s3
      cases s3
      obtain ⟨k0, k1⟩ := (h.outside hL hx (h.reached hL hxa)).2 _ _ s7
      rw [hA] at hi
      interval_cases i
      · exact .inr k0
      · exact k1)
  refine ⟨q, h.made, h.shape, by omega, ⟨fun _ => 0, fun i hi => ?_⟩, N, fun fuel hfuel => ?_⟩
  · have hi : i < q.Au.nr := hi
    rw [hA] at hi
    interval_cases i
    · rw [h.lhs0, show q.data.b.e 0 = 1 from h.b0]; norm_num
    · rw [h.lhs1, show q.data.b.e 1 = 2 + 4e-6 from h.b1]; norm_num
  · obtain ⟨r, hr1, hr2, -⟩ := hN fuel hfuel
    obtain ⟨r', hr'⟩ := C123_partial L hL 1 q h.made h.shape one_pos (by omega) 1e-5 (fun xa hxa cr hp => by
      rcases hcr xa hxa cr hp with rfl | rfl
      · refine ⟨fun _ => 0, (fCr_mem h.made h.shape h.licq_nil _).2 ⟨by simp, fun i hi _ => ?_⟩, by norm_num⟩
        rw [hA] at hi
        interval_cases i
        · rw [h.lhs0, h.sol_nil, h.b0]; norm_num
        · rw [h.lhs1, h.sol_nil, h.b1]; norm_num
      · refine ⟨fun _ => 2, (fCr_mem h.made h.shape (h.licq_one 1) _).2 ⟨fun i hi => ?_, fun i hi hia => ?_⟩, by norm_num⟩
        · obtain rfl : i = 1 := by simpa using hi
          rw [(h.sol_one _).2]; norm_num
        · rw [hA] at hi
          interval_cases i
          · rw [h.lhs0, (h.sol_one _).1, h.b0]; norm_num
          · simp at hia) fuel
    cases r' with
    | none => exact absurd (hr1.symm.trans hr') hr2
    | some sol =>
      refine ⟨sol, hr', fun x hx x1 x2 => ⟨?_, fun cr hmem => ?_⟩⟩
      · refine (opt_of_kkt h.shape (p := fun i => if i = 0 then x.e 0 - 1 else 0) ⟨fun i hi => ?_, fun j hj => ?_, fun i hi => ?_, fun i hi => ?_⟩).1
        · have hi : i < q.Au.nr := hi
          rw [hA] at hi
          interval_cases i
          · rw [h.lhs0, show q.data.b.e 0 = 1 from h.b0]; linarith
          · rw [h.lhs1, show q.data.b.e 1 = 2 + 4e-6 from h.b1]; norm_num at x2 ⊢; linarith
        · obtain rfl : j = 0 := by omega
          rw [h.lag]; simp
        · by_cases h0 : i = 0
          · simp only [h0, if_true]; norm_num at x1; linarith
          · simp [h0]
        · by_cases h0 : i = 0
          · subst h0
            rw [h.lhs0, show q.data.b.e 0 = 1 from h.b0]; ring
          · simp [h0]
      · obtain ⟨xa, cr1, l', j1, j2, j3⟩ := (explore_reached fuel [(Vec.zeros q.fx.n, [])]
          (fun xa hxa => by rw [List.mem_singleton] at hxa; subst hxa; exact .start) [] sol hr' cr hmem).resolve_left (by simp)
        rw [(neighbours_like j3).contains]
        rcases hcr xa j1 cr1 j2 with rfl | rfl
        · obtain ⟨r, r1, r2⟩ := h.contains_iff (a := []) (by simp) h.licq_nil hx
          rw [r1]
          cases r with
          | false => rfl
          | true =>
            have := r2.1 rfl 0 (by norm_num)
            rw [h.rows_nil.1.1, h.rows_nil.1.2] at this
            norm_num at this x1
            linarith
        · obtain ⟨r, r1, r2⟩ := h.contains_iff (a := [1]) (by simp [hA]) (h.licq_one 1) hx
          rw [r1]
          cases r with
          | false => rfl
          | true =>
            have := r2.1 rfl 1 (by norm_num)
            rw [h.rows_one.2.1, h.rows_one.2.2] at this
            norm_num at this x2
            linarith

end Verif.Props
