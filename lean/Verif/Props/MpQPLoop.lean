import Verif.Props.MpQPSearch
import Verif.Proofs.Gurobi

/-
`explicit_solve` of `/repo/pympc/optimization/parametric_programs.py` on two programs: one on which the
search ends and one on which it does not (C84).
-/
namespace Verif.Props
open Finset Verif.MpQP

/-- min u0² / 2 + 1e-3 (u1 - x)² / 2 s.t. u1 ≤ 0, u0 ≤ -1 -/
noncomputable def endless : Spec.ParamQP :=
  ⟨⟨2, 2, fun i j => if i = j then (if i = 0 then 1 else 1e-3) else 0⟩,
   ⟨2, 1, fun i _ => if i = 0 then 0 else -1e-3⟩, ⟨1, 1, fun _ _ => 1e-3⟩, ⟨2, fun _ => 0⟩, ⟨1, fun _ => 0⟩, 0,
   ⟨2, 2, fun i j => if i = j then 0 else 1⟩, ⟨2, 1, fun _ _ => 0⟩, ⟨2, fun i => if i = 0 then 0 else -1⟩⟩

theorem endless_shape : endless.Shape 2 1 := by
  refine ⟨⟨rfl, rfl, fun i _ j _ => ?_, ?_⟩, rfl, rfl, rfl, rfl, rfl, rfl, rfl, rfl, rfl, rfl⟩
  · by_cases h : i = j
    · rw [h]
    · simp [endless, h, Ne.symm h]
  · rintro x ⟨i, hi, hx⟩
    simp only [endless, Finset.sum_range_succ, Finset.sum_range_zero]
    norm_num
    interval_cases i
    · have := mul_self_pos.2 hx
      nlinarith [mul_self_nonneg (x 1)]
    · have := mul_self_pos.2 hx
      nlinarith [mul_self_nonneg (x 0)]

theorem endless_licq (a : List ℕ) (ha : a = [] ∨ a = [1]) : endless.Licq 2 a := by
  rcases ha with rfl | rfl
  · intro w _ k hk
    simp at hk
  · intro w hw k hk
    have := hw 0 (by norm_num)
    simp [endless] at this
    have hk0 : k = 0 := by simpa using hk
    rw [hk0, this]

theorem endless_lhs (u x : ℕ → ℝ) : endless.lhs 2 1 0 u x = u 1 ∧ endless.lhs 2 1 1 u x = u 0 := by
  constructor <;> simp [Spec.ParamQP.lhs, endless, Finset.sum_range_succ]

theorem endless_lag (u x p : ℕ → ℝ) : endless.lagrangian 2 1 u x p 0 = u 0 + p 1 ∧
    endless.lagrangian 2 1 u x p 1 = 1e-3 * u 1 - 1e-3 * x 0 + p 0 := by
  constructor <;> simp [Spec.ParamQP.lagrangian, endless, Finset.sum_range_succ]
  ring

/-- solution and multipliers of the active sets `[]` and `[1]` -/
theorem endless_kkt {q : MpQP} (hm : q.Made) (hd : q.data = endless) (x : ℕ → ℝ) :
    (q.fu' [] 1 x 0 = 0 ∧ q.fu' [] 1 x 1 = x 0) ∧
    (q.fu' [1] 1 x 0 = -1 ∧ q.fu' [1] 1 x 1 = x 0 ∧ q.fp' [1] 1 x 1 = 1) := by
  have hs : q.data.Shape 2 1 := by rw [hd]; exact endless_shape
  have hA : q.Au.nr = 2 := congrArg (fun P : Spec.ParamQP => P.Au.nr) hd
  have hb : ∀ i, q.b.e i = if i = 0 then 0 else -1 := fun i => congrArg (fun P : Spec.ParamQP => P.b.e i) hd
  constructor
  · obtain ⟨-, -, k⟩ := fCr_kkt hm hs (a := []) (by simp) (by rw [hd]; exact endless_licq _ (.inl rfl)) x
    obtain ⟨k1, -⟩ := k (fun j => if j = 0 then 0 else x 0) (fun _ => 0) (by
      intro j hj
      rw [hd]
      interval_cases j
      · rw [(endless_lag _ _ _).1]; simp
      · rw [(endless_lag _ _ _).2]; simp) (by simp) (by simp)
    exact ⟨(k1 0 (by norm_num)).symm, (k1 1 (by norm_num)).symm⟩
  · obtain ⟨-, -, k⟩ := fCr_kkt hm hs (a := [1]) (by simp [hA])
      (by rw [hd]; exact endless_licq _ (.inr rfl)) x
    obtain ⟨k1, k2⟩ := k (fun j => if j = 0 then -1 else x 0) (fun i => if i = 1 then 1 else 0) (by
      intro j hj
      rw [hd]
      interval_cases j
      · rw [(endless_lag _ _ _).1]; simp
      · rw [(endless_lag _ _ _).2]; simp) (by
      intro i hi
      rw [List.mem_singleton] at hi
      subst hi
      rw [hb, hd, (endless_lhs _ _).2]; simp) (by
      intro i hi hia
      simp at hia
      simp [hia])
    exact ⟨(k1 0 (by norm_num)).symm, (k1 1 (by norm_num)).symm, (k2 1 (by omega)).symm⟩

/-- the inequalities of the two regions -/
theorem endless_rows {q : MpQP} (hm : q.Made) (hd : q.data = endless) :
    ((q.fAcr []).e 1 0 = 0 ∧ (q.fBcr []).e 1 = -1) ∧
    ((q.fAcr [1]).e 0 0 = 0 ∧ (q.fBcr [1]).e 0 = 1) ∧
    ((q.fAcr [1]).e 1 0 = 1 ∧ (q.fBcr [1]).e 1 = 0) := by
  have hs : q.data.Shape 2 1 := by rw [hd]; exact endless_shape
  have hb : ∀ i, q.b.e i = if i = 0 then 0 else -1 := fun i => congrArg (fun P : Spec.ParamQP => P.b.e i) hd
  have hAx : q.Ax.nr = 2 := congrArg (fun P : Spec.ParamQP => P.Ax.nr) hd
  have hi0 : q.inactive [] = [0, 1] := by simp [inactive, hAx, List.range_succ]
  have hi1 : q.inactive [1] = [0] := by simp [inactive, hAx, List.range_succ]
  have hk := fun x => endless_kkt hm hd x
  have hl1 : q.data.Licq 2 [1] := by rw [hd]; exact endless_licq _ (.inr rfl)
  refine ⟨?_, ?_, ?_⟩
  · have h5 := fun x => fAcr_con (a := []) hm hs x 1
    simp only [hi0, show ([0, 1] : List ℕ).getD 1 0 = 1 from rfl, hd, (endless_lhs _ _).2, hb, (hk _).1.1,
      Finset.sum_range_one, List.length_nil, Nat.zero_add] at h5
    have a1 := h5 (fun _ => 0)
    have a2 := h5 (fun _ => 1)
    norm_num at a1 a2
    constructor <;> linarith
  · have h5 := fun x => fAcr_mul (a := [1]) hs hl1 x (k := 0) (by simp)
    simp only [show ([1] : List ℕ).getD 0 0 = 1 from rfl, (hk _).2.2.2, Finset.sum_range_one] at h5
    have a1 := h5 (fun _ => 0)
    have a2 := h5 (fun _ => 1)
    norm_num at a1 a2
    constructor <;> linarith
  · have h5 := fun x => fAcr_con (a := [1]) hm hs x 0
    simp only [hi1, show ([0] : List ℕ).getD 0 0 = 0 from rfl, hd, (endless_lhs _ _).1, hb, (hk _).2.2.1,
      Finset.sum_range_one, List.length_singleton, Nat.add_zero] at h5
    have a1 := h5 (fun _ => 0)
    have a2 := h5 (fun _ => 1)
    norm_num at a1 a2
    constructor <;> linarith

theorem slackTol_one {v : Vec ℝ} (hn : v.n = 1) (h : v.e 0 = 0 ∨ v.e 0 = 1) : slackTol v = 1e-7 := by
  unfold slackTol vnorm
  rw [hn, Finset.sum_range_one]
  rcases h with h | h <;> rw [h] <;> norm_num

/-- neither region is found to contain `x ≥ 1e-5`, and the first one no point -/
theorem endless_contains {q : MpQP} (hm : q.Made) (hd : q.data = endless) {x : Vec ℝ} (hx : x.n = 1) :
    (q.fCr []).contains x = .ok false ∧ (1e-5 ≤ x.e 0 → (q.fCr [1]).contains x = .ok false) := by
  have hs : q.data.Shape 2 1 := by rw [hd]; exact endless_shape
  have hA : q.Au.nr = 2 := congrArg (fun P : Spec.ParamQP => P.Au.nr) hd
  have hnc : q.Ax.nc = 1 := congrArg (fun P : Spec.ParamQP => P.Ax.nc) hd
  have hb : ∀ i, q.b.e i = if i = 0 then 0 else -1 := fun i => congrArg (fun P : Spec.ParamQP => P.b.e i) hd
  have hAx : q.Ax.nr = 2 := congrArg (fun P : Spec.ParamQP => P.Ax.nr) hd
  have hi0 : q.inactive [] = [0, 1] := by simp [inactive, hAx, List.range_succ]
  have hi1 : q.inactive [1] = [0] := by simp [inactive, hAx, List.range_succ]
  obtain ⟨r1, r2, r3⟩ := endless_rows hm hd
  obtain ⟨k1, k2⟩ := endless_kkt hm hd x.e
  constructor
  · obtain ⟨r, h1, h2⟩ := contains_fCr hm hs (a := []) (by rw [hd]; exact endless_licq _ (.inl rfl))
      (by omega) hx
    rw [h1]
    cases r with
    | false => rfl
    | true =>
      exfalso
      have := (h2.1 rfl).2 1 (by rw [hi0]; simp)
      rw [hi0, show ([0, 1] : List ℕ).getD 1 0 = 1 from rfl, hd, (endless_lhs _ _).2, k1.1, hb,
        slackTol_one hnc (.inl r1.1)] at this
      norm_num at this
  · intro hx0
    obtain ⟨r, h1, h2⟩ := contains_fCr hm hs (a := [1]) (by rw [hd]; exact endless_licq _ (.inr rfl))
      (by omega) hx
    rw [h1]
    cases r with
    | false => rfl
    | true =>
      exfalso
      have := (h2.1 rfl).2 0 (by rw [hi1]; simp)
      rw [hi1, show ([0] : List ℕ).getD 0 0 = 0 from rfl, hd, (endless_lhs _ _).1, k2.2.1, hb,
        slackTol_one hnc (.inr r3.1)] at this
      norm_num at this hx0
      linarith

/-- at `0` and at `1e-5` the code finds the region of `[1]` -/
theorem endless_point {L : Lib} (hL : LibSpec L) {q : MpQP} (hm : q.Made) (hd : q.data = endless)
    {x : Vec ℝ} (hx : x.n = 1) (hx0 : 0 ≤ x.e 0) (hx1 : x.e 0 ≤ 1e-5) :
    q.explicit_solve_given_point L x (some []) = .ok (some (q.fCr [1])) := by
  have hs : q.data.Shape 2 1 := by rw [hd]; exact endless_shape
  have hA : q.Au.nr = 2 := congrArg (fun P : Spec.ParamQP => P.Au.nr) hd
  obtain ⟨-, g2, g3, -⟩ := C44_partial L hL 2 1 q hm hs two_pos (by omega) x hx
  have hrun0 := explicit_some hm hs (a := []) (by simp) (by rw [hd]; exact endless_licq _ (.inl rfl))
  have hl1 : q.data.Licq 2 [1] := by rw [hd]; exact endless_licq _ (.inr rfl)
  have hrun1 := explicit_some hm hs (a := [1]) (by simp [hA]) hl1
  rw [g2 [] (by simp) (fun cr h1 h2 => by
    rw [hrun0] at h1
    cases h1
    rw [(endless_contains hm hd hx).1] at h2
    cases h2)]
  -- the optimizer
  have hkkt : q.data.KKT 2 1 (fun j => if j = 0 then -1 else 0)
      (fun i => if i = 0 then 1e-3 * x.e 0 else 1) x.e := by
    rw [hd]
    refine ⟨fun i hi => ?_, fun j hj => ?_, fun i hi => ?_, fun i hi => ?_⟩
    · have : i < 2 := hi
      interval_cases i
      · rw [(endless_lhs _ _).1]; simp [endless]
      · rw [(endless_lhs _ _).2]; simp [endless]
    · interval_cases j
      · rw [(endless_lag _ _ _).1]; simp
      · rw [(endless_lag _ _ _).2]; simp
    · have : i < 2 := hi
      interval_cases i
      · simp; positivity
      · simp
    · have : i < 2 := hi
      interval_cases i
      · rw [(endless_lhs _ _).1]; simp [endless]
      · rw [(endless_lhs _ _).2]; simp [endless]
  obtain ⟨o1, o2⟩ := opt_of_kkt hs hkkt
  rcases g3 with ⟨s, h1, h2, -⟩ | ⟨u, lam, s, act, h1, h2, -, h3, h4, h5, hsort, h6, h7, h8⟩
  · exfalso
    obtain ⟨s', h1', -, h3, -⟩ := (C45_partial L hL 2 1 q hs x hx (fun j => if j = 0 then 0 else x.e 0) (by
      intro j hj
      rw [hd]
      interval_cases j
      · rw [(endless_lag _ _ _).1]; simp
      · rw [(endless_lag _ _ _).2]; simp)).1 (by omega)
    rw [h1] at h1'
    cases h1'
    have hH : ∀ i j, q.Huu.e i j = if i = j then (if i = 0 then 1 else 1e-3) else 0 :=
      fun i j => congrArg (fun P : Spec.ParamQP => P.Huu.e i j) hd
    rcases h3.1 h2 with h | ⟨v, h4, h5⟩
    · exact h _ o1.1
    · have e := o2 v h4.1 (h4.2 _ o1.1)
      have e0 := e 0 (by norm_num)
      have e1 := e 1 (by norm_num)
      simp only [if_true, one_ne_zero, if_false] at e0 e1
      simp only [Finset.sum_range_succ, Finset.sum_range_zero, hH, e0, e1] at h5
      norm_num at h5 hx1
      nlinarith
  · have e := o2 u.e h3.1 (h3.2 _ o1.1)
    have e0 := e 0 (by norm_num)
    have e1 := e 1 (by norm_num)
    simp only [if_true, one_ne_zero, if_false] at e0 e1
    have l0 := h4.stat 0 (by norm_num)
    have l1 := h4.stat 1 (by norm_num)
    rw [hd, (endless_lag _ _ _).1, e0] at l0
    rw [hd, (endless_lag _ _ _).2, e1] at l1
    have h01 : ∀ i, i ∈ act ↔ i = 1 := by
      intro i
      rw [h6, hA]
      constructor
      · rintro ⟨hi, hlam⟩
        interval_cases i
        · exfalso
          norm_num at hx1 hlam l1
          linarith
        · rfl
      · rintro rfl
        refine ⟨by norm_num, ?_⟩
        have : lam.e 1 = 1 := by linarith
        rw [this]; norm_num
    have hact : act = [1] := by
      match act, h01, hsort with
      | [], h, _ => exact absurd ((h 1).2 rfl) (by simp)
      | [i], h, _ => rw [(h i).1 (by simp)]
      | i :: j :: l, h, hp =>
        have e1 := (h i).1 (by simp)
        have e2 := (h j).1 (by simp)
        have := List.rel_of_pairwise_cons hp (List.mem_cons_self (a := j) (l := l))
        omega
    subst hact
    obtain ⟨cr, k1, k2, -⟩ := h8 hl1
    rw [k1, ← k2, hrun1]

theorem normalize_row {p : Poly} {i : ℕ} (hi : i < p.A.nr) :
    (∀ j, p.normalize.A.e i j
      = if vnorm (p.A.row i) > 1e-7 then p.A.e i j / vnorm (p.A.row i) else p.A.e i j) ∧
    p.normalize.b.e i = if vnorm (p.A.row i) > 1e-7 then p.b.e i / vnorm (p.A.row i) else p.b.e i := by
  obtain ⟨h1, h2, h3, h4, h5⟩ := Poly.normalizeRow_foldl 1e-7 p.A p.b p.A.nr
  have e1 : ∀ j, p.normalize.A.e i j = _ := h4 i
  have e2 : p.normalize.b.e i = _ := h5 i
  simp only [hi, true_and] at e1 e2
  exact ⟨e1, e2⟩

/-- the inequalities `0 ≤ 1`, `x ≤ 0` of the region of `[1]` -/
theorem endless_poly {q : MpQP} (hm : q.Made) (hd : q.data = endless) :
    let p := (q.fCr [1]).polyhedron
    p.Inv 1 ∧ p.A.nr = 2 ∧ p.C.nr = 0 ∧ p._empty = none ∧ p.A.e 0 0 = 0 ∧ p.b.e 0 = 1 ∧
      p.A.e 1 0 = 1 ∧ p.b.e 1 = 0 := by
  intro p
  have hs : q.data.Shape 2 1 := by rw [hd]; exact endless_shape
  have hnc : q.Ax.nc = 1 := congrArg (fun P : Spec.ParamQP => P.Ax.nc) hd
  have hAx : q.Ax.nr = 2 := congrArg (fun P : Spec.ParamQP => P.Ax.nr) hd
  have hi1 : q.inactive [1] = [0] := by simp [inactive, hAx, List.range_succ]
  have h7 := Props.C07 1 _ (fPoly_inv (a := [1]) hs) 1e-7 (by norm_num)
  have hnr : (q.fPoly [1]).A.nr = 2 := by
    show [1].length + (q.inactive [1]).length = 2
    rw [hi1]; rfl
  obtain ⟨r1, r2, r3⟩ := endless_rows hm hd
  have v0 : vnorm ((q.fPoly [1]).A.row 0) = 0 := by
    unfold vnorm
    rw [show ((q.fPoly [1]).A.row 0).n = 1 from hnc, Finset.sum_range_one,
      show ((q.fPoly [1]).A.row 0).e 0 = 0 from r2.1]
    norm_num
  have v1 : vnorm ((q.fPoly [1]).A.row 1) = 1 := by
    unfold vnorm
    rw [show ((q.fPoly [1]).A.row 1).n = 1 from hnc, Finset.sum_range_one,
      show ((q.fPoly [1]).A.row 1).e 0 = 1 from r3.1]
    norm_num
  obtain ⟨a0, b0⟩ := normalize_row (p := q.fPoly [1]) (i := 0) (by omega)
  obtain ⟨a1, b1⟩ := normalize_row (p := q.fPoly [1]) (i := 1) (by omega)
  rw [v0] at a0 b0
  rw [v1] at a1 b1
  rw [if_neg (by norm_num)] at b0
  rw [if_pos (by norm_num), div_one] at b1
  have a0' := a0 0
  have a1' := a1 0
  rw [if_neg (by norm_num)] at a0'
  rw [if_pos (by norm_num), div_one] at a1'
  refine ⟨fCr_inv hs, h7.2.1.trans hnr, h7.2.2.1, rfl, ?_, ?_, ?_, ?_⟩
  · exact a0'.trans r2.1
  · exact b0.trans r2.2
  · exact a1'.trans r3.1
  · exact b1.trans r3.2

theorem endless_neighbours {L : Lib} (hL : LibSpec L) {q : MpQP} (hm : q.Made) (hd : q.data = endless) :
    ∃ (x : Vec ℝ) (cr : CritReg), x.n = 1 ∧ x.e 0 = 1e-5 ∧ Like cr (q.fCr [1]) ∧
      neighbours L 1e-5 (q.fCr [1]) = .ok ([(x, [])], cr) := by
  obtain ⟨hI, hnr, hC, he, a0, b0, a1, b1⟩ := endless_poly hm hd
  obtain ⟨mf, h1, -, h2, h3, h4, h5⟩ := redundancy_run hL hI (p := (q.fCr [1]).polyhedron) (.inl (by rw [hnr]; norm_num))
    (fun e h => by rw [he] at h; cases h)
    ⟨fun _ => 0, ⟨fun i hi => by
        rw [hnr] at hi
        interval_cases i
        · simp [b0]
        · simp [b1], fun i hi => by rw [hC] at hi; exact absurd hi (Nat.not_lt_zero i)⟩, by norm_num⟩
    (.inl hC) (tol := 1e-7) (by norm_num)
  have hrow : ∀ i x, Spec.rowVal (q.fCr [1]).polyhedron.A i x
      = (q.fCr [1]).polyhedron.A.e i 0 * x 0 := by
    intro i x
    unfold Spec.rowVal
    rw [hI.1, Finset.sum_range_one]
  have hE : ∀ x, Spec.EqHold (q.fCr [1]).polyhedron.C (q.fCr [1]).polyhedron.d x := by
    intro x i hi
    rw [hC] at hi
    exact absurd hi (Nat.not_lt_zero i)
  have n0 : 0 ∉ mf := by
    intro h0
    obtain ⟨x, -, -, -, h⟩ := h4 0 h0
    rw [hrow, a0, b0] at h
    norm_num at h
  have n1 : 1 ∈ mf := by
    by_contra h0
    have := h5 1 (by omega) h0 (fun _ => 1) (hE _) (fun j hj => by
      have hj2 := h3 j hj
      rw [hnr] at hj2
      interval_cases j
      · rw [hrow, a0, b0]; norm_num
      · exact absurd hj h0) (fun j hj hj1 => by omega)
    rw [hrow, a1, b1] at this
    norm_num at this
  have hmf : mf = [1] := by
    have hnd : mf.Nodup := h2.nodup List.nodup_range
    have hall : ∀ i ∈ mf, i = 1 := by
      intro i hi
      have := h3 i hi
      rw [hnr] at this
      interval_cases i
      · exact absurd hi n0
      · rfl
    match mf, n1, hnd, hall with
    | [i], _, _, h => rw [h i (by simp)]
    | i :: j :: l, _, hn, h =>
      have e1 := h i (by simp)
      have e2 := h j (by simp)
      subst e1 e2
      simp at hn
  subst hmf
  have hlike : Like { q.fCr [1] with polyhedron := (Poly.minimal_facets L 1e-7 (q.fCr [1]).polyhedron).2 }
      (q.fCr [1]) := ⟨_, by rw [minimal_facets_state]; exact empty_sameData L _, rfl⟩
  have hb : beyondFacet L 1e-5
      { q.fCr [1] with polyhedron := (Poly.minimal_facets L 1e-7 (q.fCr [1]).polyhedron).2 } 1
      = .ok (((Vec.single (0 / 1 : ℝ)).add (((q.fCr [1]).polyhedron.A.row 1).smul 1e-5)), []) := by
    rw [h1]
    have hfc : CritReg.facet_center L { q.fCr [1] with
        polyhedron := { (q.fCr [1]).polyhedron with _empty := some false } } 1
        = .ok (some (Vec.single (0 / 1 : ℝ))) := by
      unfold CritReg.facet_center
      rw [if_pos hI.1]
      show Except.ok (some (Vec.single ((q.fCr [1]).polyhedron.b.e 1 / (q.fCr [1]).polyhedron.A.e 1 0))) = _
      rw [b1, a1]
    unfold beyondFacet
    have hadd : np.addV (Vec.single (0 / 1 : ℝ)) (((q.fCr [1]).polyhedron.A.row 1).smul 1e-5) = .ok _ :=
      if_pos hI.1.symm
    simp only at hfc ⊢
    rw [hfc, Py.ok_bind]
    simp only
    rw [hadd, Py.ok_bind]
    have : (symmDiff (q.fCr [1]).active_set.toFinset {1}).sort (· ≤ ·) = [] := by
      have : symmDiff (q.fCr [1]).active_set.toFinset {1} = (∅ : Finset ℕ) := by
        show symmDiff ([1] : List ℕ).toFinset {1} = ∅
        simp
      rw [this]; simp
    rw [this]
    rfl
  refine ⟨((Vec.single (0 / 1 : ℝ)).add (((q.fCr [1]).polyhedron.A.row 1).smul 1e-5)), _, rfl, ?_, hlike, ?_⟩
  · show (Vec.single (0 / 1 : ℝ)).e 0 + 1e-5 * (q.fCr [1]).polyhedron.A.e 1 0 = 1e-5
    rw [a1]
    simp [Vec.single]
  · unfold neighbours
    rw [show (Poly.minimal_facets L 1e-7 (q.fCr [1]).polyhedron).1 = .ok (some [1]) by rw [h1], Py.ok_bind]
    simp only [List.mapM_cons, List.mapM_nil, hb]
    rfl

/-- C84 is false: a program with two constraints and one parameter on which the search never ends, since
it finds the same region again and again. -/
theorem C84_false (L : Lib) (hL : LibSpec L) : ∃ q : MpQP, q.Made ∧ q.data.Shape 2 1 ∧
    ∀ fuel, q.explicit_solve L fuel = .ok none := by
  obtain ⟨q, -, hm, hd⟩ := init_made endless_shape
  have hs : q.data.Shape 2 1 := by rw [hd]; exact endless_shape
  refine ⟨q, hm, hs, fun fuel => ?_⟩
  obtain ⟨x1, cr, hx1, hx0, hlike, hnb⟩ := endless_neighbours hL hm hd
  have hfalse : cr.contains x1 = .ok false := by
    rw [hlike.contains]
    exact (endless_contains hm hd hx1).2 hx0.ge
  have hunc : ∀ (found : List CritReg) (x : Vec ℝ), (∀ c ∈ found, c.contains x = .ok false) →
      uncovered found [(x, [])] = .ok [(x, [])] := by
    intro found x h
    have hcov : covered found x = .ok false := by
      unfold covered
      rw [mapM_ok (g := fun _ => false) fun c hc => h c hc, Py.ok_bind]
      have : (found.map fun _ => false).any id = false := by simp
      rw [this]; rfl
    show (covered found x >>= fun c => _) = _
    rw [hcov]
    rfl
  have hloop : ∀ (fuel : ℕ) (found : List CritReg), (∀ c ∈ found, c.contains x1 = .ok false) →
      explore L q 1e-5 fuel [(x1, [])] found = .ok none := by
    intro fuel
    induction fuel with
    | zero => intro _ _; rfl
    | succ fuel ih =>
      intro found hf
      unfold explore
      rw [hunc found x1 hf, Py.ok_bind]
      simp only
      rw [endless_point hL hm hd hx1 (by rw [hx0]; norm_num) hx0.le, Py.ok_bind]
      simp only
      rw [hnb, Py.ok_bind]
      exact ih _ fun c hc => by
        rcases List.mem_append.1 hc with h | h
        · exact hf c h
        · rw [List.mem_singleton] at h; rw [h]; exact hfalse
  have hfx : q.fx.n = 1 := congrArg (fun P : Spec.ParamQP => P.fx.n) hd
  cases fuel with
  | zero => rfl
  | succ fuel =>
    unfold explicit_solve explore
    rw [hunc [] _ (by simp), Py.ok_bind]
    simp only
    rw [endless_point hL hm hd (x := Vec.zeros q.fx.n) hfx le_rfl (by simp [Vec.zeros]; norm_num), Py.ok_bind]
    simp only
    rw [hnb, Py.ok_bind]
    exact hloop fuel _ fun c hc => by
      rw [List.nil_append, List.mem_singleton] at hc; rw [hc]; exact hfalse

/-! ### a program on which the search ends -/

theorem clip_poly {q : MpQP} (hm : q.Made) (hd : IsClip q.data) :
    ((q.fCr []).polyhedron.A.nr = 1 ∧ (q.fCr []).polyhedron.A.e 0 0 = 1 ∧ (q.fCr []).polyhedron.b.e 0 = 0) ∧
    ((q.fCr [0]).polyhedron.A.nr = 1 ∧ (q.fCr [0]).polyhedron.A.e 0 0 = -1 ∧
      (q.fCr [0]).polyhedron.b.e 0 = 0) := by
  have hs : q.data.Shape 1 1 := hd.shape
  have hnc : q.Ax.nc = 1 := hd.shape.Ax
  have hAx : q.Ax.nr = 1 := hd.Ax_nr
  have hb : q.b.e 0 = 0 := hd.b
  have hi0 : q.inactive [] = [0] := by simp [inactive, hAx]
  have hi1 : q.inactive [0] = [] := by simp [inactive, hAx]
  have hl1 : q.data.Licq 1 [0] := hd.licq _ (.inr rfl)
  have hlhs : ∀ u x, q.data.lhs 1 1 0 u x = u 0 := hd.lhs
  have h7 := fun a => Props.C07 1 _ (fPoly_inv (a := a) hs) 1e-7 (by norm_num)
  constructor
  · have hk : ∀ x : ℝ, q.fu' [] 1 (fun _ => x) 0 = x := fun x =>
      (clip_kkt (.inl rfl) x (u := x) (p := 0) (by ring) (by simp) (by simp) hm hd).1
    have h5 := fun x : ℝ => fAcr_con (a := []) hm hs (fun _ => x) 0
    simp only [hi0, show ([0] : List ℕ).getD 0 0 = 0 from rfl, hlhs, hk, hb, Finset.sum_range_one,
      List.length_nil, Nat.add_zero] at h5
    have e1 := h5 0
    have e2 := h5 1
    have a1 : (q.fAcr []).e 0 0 = 1 := by linarith
    have a2 : (q.fBcr []).e 0 = 0 := by linarith
    have hnr : (q.fPoly []).A.nr = 1 := by
      show ([] : List ℕ).length + (q.inactive []).length = 1
      rw [hi0]; rfl
    have v : vnorm ((q.fPoly []).A.row 0) = 1 := by
      unfold vnorm
      rw [show ((q.fPoly []).A.row 0).n = 1 from hnc, Finset.sum_range_one,
        show ((q.fPoly []).A.row 0).e 0 = 1 from a1]
      norm_num
    obtain ⟨c1, c2⟩ := normalize_row (p := q.fPoly []) (i := 0) (by omega)
    have c1' := c1 0
    rw [v, if_pos (by norm_num), div_one] at c1' c2
    exact ⟨(h7 []).2.1.trans hnr, c1'.trans a1, c2.trans a2⟩
  · have hk : ∀ x : ℝ, q.fp' [0] 1 (fun _ => x) 0 = 100 * x := fun x =>
      (clip_kkt (.inr rfl) x (u := 0) (p := 100 * x) (by ring) (by simp) (by simp) hm hd).2
    have h5 := fun x : ℝ => fAcr_mul (a := [0]) hs hl1 (fun _ => x) (k := 0) (by simp)
    simp only [show ([0] : List ℕ).getD 0 0 = 0 from rfl, hk, Finset.sum_range_one] at h5
    have e1 := h5 0
    have e2 := h5 1
    have a1 : (q.fAcr [0]).e 0 0 = -100 := by linarith
    have a2 : (q.fBcr [0]).e 0 = 0 := by linarith
    have hnr : (q.fPoly [0]).A.nr = 1 := by
      show ([0] : List ℕ).length + (q.inactive [0]).length = 1
      rw [hi1]; rfl
    have v : vnorm ((q.fPoly [0]).A.row 0) = 100 := by
      unfold vnorm
      rw [show ((q.fPoly [0]).A.row 0).n = 1 from hnc, Finset.sum_range_one,
        show ((q.fPoly [0]).A.row 0).e 0 = -100 from a1,
        show ((-100 : ℝ)) ^ 2 = 100 ^ 2 by norm_num, Real.sqrt_sq (by norm_num)]
    obtain ⟨c1, c2⟩ := normalize_row (p := q.fPoly [0]) (i := 0) (by omega)
    have c1' := c1 0
    rw [v, if_pos (by norm_num)] at c1' c2
    refine ⟨(h7 [0]).2.1.trans hnr, c1'.trans ?_, c2.trans ?_⟩
    · rw [show (q.fPoly [0]).A.e 0 0 = -100 from a1]; norm_num
    · rw [show (q.fPoly [0]).b.e 0 = 0 from a2]; norm_num

theorem clip_reached {L : Lib} (hL : LibSpec L) {q : MpQP} (hm : q.Made) (hd : IsClip q.data)
    {xa : Vec ℝ × List ℕ} (h : Reached L q 1e-5 xa) : xa.1.e 0 ≤ 0 ∨ xa.1.e 0 = 1e-5 := by
  have hs : q.data.Shape 1 1 := hd.shape
  have hA : q.Au.nr = 1 := hd.nr
  obtain ⟨p1, p2⟩ := clip_poly hm hd
  cases h with
  | start => left; exact le_rfl
  | next h1 h2 h3 h4 =>
    obtain ⟨a, hrun⟩ := point_from h2
    obtain ⟨ha, hl, rfl⟩ := explicit_cases hm hs hrun
    have ha' : a = [] ∨ a = [0] := by
      have hnd := licq_nodup hl
      have h0 : ∀ i ∈ a, i = 0 := fun i hi => by have := ha i hi; omega
      match a, hnd, h0 with
      | [], _, _ => exact .inl rfl
      | [i], _, h => rw [h i (by simp)]; exact .inr rfl
      | i :: j :: l, hn, h =>
        have e1 := h i (by simp)
        have e2 := h j (by simp)
        subst e1 e2
        simp at hn
    obtain ⟨P, hsame, rfl⟩ := neighbours_like h3
    obtain ⟨mf, k1, k2⟩ := neighbours_mem h3
    obtain ⟨l1, l2⟩ := mapM_ok_iff k2
    obtain ⟨i, hi, rfl⟩ := List.getElem_of_mem h4
    have hb := l2 i (l1 ▸ hi) hi
    -- the facet
    have hI := fCr_inv (a := a) hs
    have hrows : (q.fCr a).polyhedron.HasRows := by
      by_contra h0
      rw [((C09_errors L hL 1 _ hI (fun e h => by cases h) 1e-7).1 h0).1] at k1
      cases k1
    obtain ⟨e, he, hrun'⟩ := Poly.empty_run hL hI hrows (fun e h => by cases h)
    have hmf : mf[i]'(l1 ▸ hi) = 0 := by
      cases e with
      | true => rw [Poly.minimal_facets_empty hL hI (fun e h => by cases h) he 1e-7] at k1; cases k1
      | false =>
        obtain ⟨r, r1, r2, -⟩ := Poly.minimal_facets_ok hL hI (fun e h => by cases h) he
          (.inl (Props.C07 1 _ (fPoly_inv (a := a) hs) 1e-7 (by norm_num)).2.2.1) (tol := 1e-7)
          (by norm_num)
        rw [r1] at k1
        cases k1
        have hlt := r2.subset (List.getElem_mem (l := mf) (n := i) (l1 ▸ hi))
        rw [List.mem_range] at hlt
        have : (q.fCr a).polyhedron.A.nr = 1 := by
          rcases ha' with rfl | rfl
          · exact p1.1
          · exact p2.1
        omega
    rw [hmf] at hb
    have hval : ∀ x, beyondFacet L 1e-5 { q.fCr a with polyhedron := P } 0 = .ok x →
        x.1.e 0 = P.b.e 0 / P.A.e 0 0 + 1e-5 * P.A.e 0 0 := by
      intro x hx
      unfold beyondFacet CritReg.facet_center at hx
      have hnc : P.A.nc = 1 := by rw [hsame.1]; exact hI.1
      simp only [hnc, if_true, Py.ok_bind] at hx
      have hadd : np.addV (Vec.single (P.b.e 0 / P.A.e 0 0)) ((P.A.row 0).smul 1e-5) = .ok _ :=
        if_pos hnc.symm
      rw [hadd] at hx
      cases hx
      rfl
    rw [hval _ hb, hsame.1, hsame.2.1]
    rcases ha' with rfl | rfl
    · right; rw [p1.2.1, p1.2.2]; norm_num
    · left; rw [p2.2.1, p2.2.2]; norm_num

/-- the hypotheses of `C84_partial` are met -/
example (L : Lib) (hL : LibSpec L) : ∃ q : MpQP, q.Made ∧ q.data.Shape 1 1 ∧ 0 < 1 ∧ 0 < q.Au.nr ∧
    ∀ xa, Reached L q 1e-5 xa → xa.1.n = 1 → ∀ s lam, q.solve L xa.1 = .ok s →
      s.multiplier_inequality = some lam → ∀ i < q.Au.nr, 1e-7 < lam.e i ∨ lam.e i = 0 := by
  obtain ⟨q, hm, hd, hs, hA, hrun⟩ := clip_made
  refine ⟨q, hm, hs, one_pos, by omega, fun xa hxa hx s lam h1 h2 i hi => ?_⟩
  have hi0 : i = 0 := by omega
  subst hi0
  rcases solveThenExplicit_run hL hm hs (by omega) hx with ⟨s1, -⟩ | ⟨u, lam', s', s1, s2, s3, s4, s5, s6, s7, -⟩
  · rw [h1] at s1; cases s1; cases h2
  · rw [h1] at s1
    cases s1
    rw [h2] at s3
    cases s3
    have hst := s7.stat 0 (by norm_num)
    have hf := s7.feas 0 (by rw [show q.data.Au.nr = 1 from hA]; norm_num)
    have hc := s7.compl 0 (by rw [show q.data.Au.nr = 1 from hA]; norm_num)
    have hn := s7.nonneg 0 (by rw [show q.data.Au.nr = 1 from hA]; norm_num)
    rw [hd] at hst hf hc
    simp [Spec.ParamQP.lagrangian, Spec.ParamQP.lhs, clip] at hst hf hc
    rcases hc with hc | hc
    · exact .inr hc
    · rw [hc] at hst
      rcases clip_reached hL hm (hd ▸ clip_is) hxa with h | h
      · right; linarith
      · left
        norm_num at h ⊢
        linarith

end Verif.Props
