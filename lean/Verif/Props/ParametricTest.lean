import Verif.Model.TestParametric
import Verif.Props.FeasibleSet
import Verif.Props.GeomUtils
import Verif.Props.MpQPAll
import Verif.Props.MpQPRaises

/- The test of the multiparametric programs passes (C159). -/
namespace Verif.Props
open Finset Verif.MpQP

/-- the program of the test: `u²/2` under `u - x ≤ 1`, `x - u ≤ 1`, `x ≤ 2`, `-x ≤ 2` -/
noncomputable def testQP : Spec.ParamQP :=
  ⟨⟨1, 1, fun _ _ => 1⟩, Mat.zeros 1 1, Mat.zeros 1 1, Vec.zeros 1, Vec.zeros 1, 0,
    ⟨4, 1, fun i _ => if i = 0 then 1 else if i = 1 then -1 else 0⟩,
    ⟨4, 1, fun i _ => if i = 0 then -1 else if i = 1 then 1 else if i = 2 then 1 else -1⟩,
    ⟨4, fun i => if i < 2 then 1 else 2⟩⟩

theorem testQP_shape : testQP.Shape 1 1 := by
  refine ⟨⟨rfl, rfl, fun _ _ _ _ => rfl, ?_⟩, rfl, rfl, rfl, rfl, rfl, rfl, rfl, rfl, rfl, rfl⟩
  rintro x ⟨i, hi, hx⟩
  obtain rfl : i = 0 := by omega
  have := mul_self_pos.2 hx
  simp [testQP]
  nlinarith

theorem testQP_lhs (u x : ℕ → ℝ) : testQP.lhs 1 1 0 u x = u 0 - x 0 ∧ testQP.lhs 1 1 1 u x = x 0 - u 0 ∧ testQP.lhs 1 1 2 u x = x 0 ∧
    testQP.lhs 1 1 3 u x = - x 0 := by
  simp only [Spec.ParamQP.lhs, testQP, Finset.sum_range_one]
  norm_num
  constructor <;> ring

theorem testQP_b : testQP.b.e 0 = 1 ∧ testQP.b.e 1 = 1 ∧ testQP.b.e 2 = 2 ∧ testQP.b.e 3 = 2 := by norm_num [testQP]

theorem testQP_lag (u x p : ℕ → ℝ) : testQP.lagrangian 1 1 u x p 0 = u 0 + p 0 - p 1 := by
  simp [Spec.ParamQP.lagrangian, testQP, Finset.sum_range_succ, Mat.zeros, Vec.zeros]
  ring

theorem testQP_cost (u x : ℕ → ℝ) : testQP.cost 1 1 u x = u 0 ^ 2 / 2 := by
  simp [Spec.ParamQP.cost, testQP, Mat.zeros, Vec.zeros]
  ring

theorem testQP_feas (u x : ℕ → ℝ) : testQP.Feas 1 1 u x ↔ u 0 - x 0 ≤ 1 ∧ x 0 - u 0 ≤ 1 ∧ x 0 ≤ 2 ∧ -x 0 ≤ 2 := by
  obtain ⟨l0, l1, l2, l3⟩ := testQP_lhs u x
  obtain ⟨b0, b1, b2, b3⟩ := testQP_b
  constructor
  · intro h
    have h0 := h 0 (by norm_num [testQP])
    have h1 := h 1 (by norm_num [testQP])
    have h2 := h 2 (by norm_num [testQP])
    have h3 := h 3 (by norm_num [testQP])
    rw [l0, b0] at h0
    rw [l1, b1] at h1
    rw [l2, b2] at h2
    rw [l3, b3] at h3
    exact ⟨h0, h1, h2, h3⟩
  · rintro ⟨h0, h1, h2, h3⟩ i hi
    have hi : i < 4 := hi
    interval_cases i
    · rw [l0, b0]; exact h0
    · rw [l1, b1]; exact h1
    · rw [l2, b2]; exact h2
    · rw [l3, b3]; exact h3

theorem testQP_kkt (u p x : ℕ → ℝ) : testQP.KKT 1 1 u p x ↔ (u 0 - x 0 ≤ 1 ∧ x 0 - u 0 ≤ 1 ∧ x 0 ≤ 2 ∧ -x 0 ≤ 2) ∧ u 0 + p 0 - p 1 = 0 ∧
    (0 ≤ p 0 ∧ 0 ≤ p 1 ∧ 0 ≤ p 2 ∧ 0 ≤ p 3) ∧
    p 0 * (1 - (u 0 - x 0)) = 0 ∧ p 1 * (1 - (x 0 - u 0)) = 0 ∧ p 2 * (2 - x 0) = 0 ∧ p 3 * (2 - - x 0) = 0 := by
  obtain ⟨l0, l1, l2, l3⟩ := testQP_lhs u x
  obtain ⟨b0, b1, b2, b3⟩ := testQP_b
  constructor
  · rintro ⟨h1, h2, h3, h4⟩
    have c0 := h4 0 (by norm_num [testQP])
    have c1 := h4 1 (by norm_num [testQP])
    have c2 := h4 2 (by norm_num [testQP])
    have c3 := h4 3 (by norm_num [testQP])
    rw [l0, b0] at c0
    rw [l1, b1] at c1
    rw [l2, b2] at c2
    rw [l3, b3] at c3
    have s := h2 0 one_pos
    rw [testQP_lag] at s
    exact ⟨(testQP_feas u x).1 h1, s, ⟨h3 0 (by norm_num [testQP]), h3 1 (by norm_num [testQP]), h3 2 (by norm_num [testQP]), h3 3 (by norm_num [testQP])⟩, c0, c1, c2, c3⟩
  · rintro ⟨h1, h2, ⟨n0, n1, n2, n3⟩, c0, c1, c2, c3⟩
    refine ⟨(testQP_feas u x).2 h1, fun j hj => ?_, fun i hi => ?_, fun i hi => ?_⟩
    · obtain rfl : j = 0 := by omega
      rw [testQP_lag]; exact h2
    · have hi : i < 4 := hi
      interval_cases i
      exacts [n0, n1, n2, n3]
    · have hi : i < 4 := hi
      interval_cases i
      · rw [l0, b0]; exact c0
      · rw [l1, b1]; exact c1
      · rw [l2, b2]; exact c2
      · rw [l3, b3]; exact c3

/-- the solution of the program -/
theorem testQP_sol {u p x : ℕ → ℝ} (h : testQP.KKT 1 1 u p x) (h1 : -2 < x 0) (h2 : x 0 < 2) : p 2 = 0 ∧ p 3 = 0 ∧
    (-1 ≤ x 0 → x 0 ≤ 1 → u 0 = 0 ∧ p 0 = 0 ∧ p 1 = 0) ∧ (x 0 ≤ -1 → u 0 = x 0 + 1 ∧ p 0 = -(x 0 + 1) ∧ p 1 = 0) ∧
    (1 ≤ x 0 → u 0 = x 0 - 1 ∧ p 0 = 0 ∧ p 1 = x 0 - 1) := by
  obtain ⟨⟨f0, f1, -, -⟩, s, ⟨n0, n1, -, -⟩, c0, c1, c2, c3⟩ := (testQP_kkt u p x).1 h
  have e2 : p 2 = 0 := (mul_eq_zero.1 c2).resolve_right (by linarith)
  have e3 : p 3 = 0 := (mul_eq_zero.1 c3).resolve_right (by linarith)
  refine ⟨e2, e3, ?_⟩
  rcases mul_eq_zero.1 c0 with c0 | c0 <;> rcases mul_eq_zero.1 c1 with c1 | c1 <;>
    refine ⟨fun a b => ⟨?_, ?_, ?_⟩, fun a => ⟨?_, ?_, ?_⟩, fun a => ⟨?_, ?_, ?_⟩⟩ <;> linarith

theorem testQP_licq {a : List ℕ} (ha : a = [] ∨ a = [0] ∨ a = [1]) : testQP.Licq 1 a := by
  intro w hw k hk
  rcases ha with rfl | rfl | rfl
  · simp at hk
  all_goals
    have := hw 0 (by norm_num)
    simp [testQP] at this
    have hk0 : k = 0 := by simpa using hk
    rw [hk0, this]

theorem testQP_licq_only {a : List ℕ} (ha : ∀ i ∈ a, i < 4) (hl : testQP.Licq 1 a) : a = [] ∨ a = [0] ∨ a = [1] := by
  match a, ha, hl with
  | [], _, _ => exact .inl rfl
  | [i], ha, hl =>
    have hi := ha i (by simp)
    interval_cases i
    · exact .inr (.inl rfl)
    · exact .inr (.inr rfl)
    all_goals
      have := hl (fun _ => 1) (fun j _ => by simp [testQP]) 0 (by simp)
      norm_num at this
  | i :: j :: l, ha, hl =>
    exfalso
    have key : ∀ c d : ℝ, c * testQP.Au.e i 0 + d * testQP.Au.e j 0 = 0 → c = 0 ∧ d = 0 := by
      intro c d hcd
      have h := hl (fun k => if k = 0 then c else if k = 1 then d else 0) (fun m hm => by
        obtain rfl : m = 0 := by omega
        rw [List.length_cons, List.length_cons, Finset.sum_range_succ', Finset.sum_range_succ']
        simp
        linarith)
      exact ⟨by simpa using h 0 (by simp), by simpa using h 1 (by simp)⟩
    have h1 := key (testQP.Au.e j 0) (- testQP.Au.e i 0) (by ring)
    have h2 := key 1 0 (by rw [show testQP.Au.e i 0 = 0 by linarith [h1.2]]; ring)
    exact one_ne_zero h2.1

section
variable {q : MpQP} (hm : q.Made) (hd : q.data = testQP)
include hd

theorem tq_shape : q.data.Shape 1 1 := hd ▸ testQP_shape
theorem tq_nr : q.Au.nr = 4 := congrArg (fun P : Spec.ParamQP => P.Au.nr) hd
theorem tq_b (i : ℕ) : q.b.e i = testQP.b.e i := congrArg (fun P : Spec.ParamQP => P.b.e i) hd
theorem tq_licq {a : List ℕ} (ha : a = [] ∨ a = [0] ∨ a = [1]) : q.data.Licq 1 a := hd ▸ testQP_licq ha

/-- what `solve` gives -/
theorem tq_solve {L : Lib} (hL : LibSpec L) (x : Vec ℝ) (hx : x.n = 1) :
    (-2 ≤ x.e 0 → x.e 0 ≤ 2 → ∃ (s : Sol) (u lam : Vec ℝ) (act : List ℕ), q.solve L x = .ok s ∧ s.min = some (u.e 0 ^ 2 / 2) ∧ s.argmin = some u ∧ u.n = 1 ∧
      s.multiplier_inequality = some lam ∧ lam.n = 4 ∧ testQP.KKT 1 1 u.e lam.e x.e ∧ s.active_set = some act ∧ act.Pairwise (· < ·) ∧
      ∀ i, i ∈ act ↔ i < 4 ∧ 1e-7 < lam.e i) ∧
    (x.e 0 < -2 ∨ 2 < x.e 0 → q.solve L x = .ok Sol.none) := by
  have hnr := tq_nr hd
  obtain ⟨s, h1, h2, h3, h4⟩ := (C45_partial L hL 1 1 q (tq_shape hd) x hx (fun _ => 0) (by
    intro j hj
    obtain rfl : j = 0 := by omega
    rw [hd, testQP_lag]; ring)).1 (by omega)
  rw [hd, hnr] at h2
  rw [hd] at h3
  have hH : q.Huu.e 0 0 = 1 := congrArg (fun P : Spec.ParamQP => P.Huu.e 0 0) hd
  constructor
  · intro a1 a2
    cases hmin : s.min with
    | none =>
      exfalso
      have hf : testQP.Feas 1 1 (fun _ => x.e 0 / 2) x.e := (testQP_feas _ _).2 ⟨by linarith, by linarith, a2, by linarith⟩
      rcases h3.1 hmin with h5 | ⟨v, h5, h6⟩
      · exact h5 _ hf
      · rw [Finset.sum_range_one, Finset.sum_range_one, hH] at h6
        have h7 := h5.2 _ hf
        rw [testQP_cost, testQP_cost] at h7
        have h8 : (x.e 0 / 2) ^ 2 ≤ 1 := by
          rw [sq_le_one_iff_abs_le_one, abs_le]
          constructor <;> linarith
        norm_num at h6
        nlinarith
    | some m =>
      obtain ⟨u, lam, g1, g2, -, -, g3, g4, g5, g6, act, g7, g8, g9⟩ := h2 m hmin
      rw [testQP_cost] at g3
      exact ⟨s, u, lam, act, h1, by rw [hmin, g3], g1, g2, g4, g5, g6, g7, g8, g9⟩
  · intro a
    rw [h1, h4 (h3.2 (.inl fun u hu => ?_))]
    obtain ⟨-, -, f1, f2⟩ := (testQP_feas _ _).1 hu
    rcases a with a | a <;> linarith

include hm

/-- the regions -/
theorem tq_values (x : ℕ → ℝ) : q.fu' [] 1 x 0 = 0 ∧ q.fu' [0] 1 x 0 = x 0 + 1 ∧ q.fp' [0] 1 x 0 = -(x 0 + 1) ∧ q.fu' [1] 1 x 0 = x 0 - 1 ∧
    q.fp' [1] 1 x 1 = x 0 - 1 := by
  have hs := tq_shape hd
  have hnr := tq_nr hd
  have hb := tq_b hd
  obtain ⟨b0, b1, -, -⟩ := testQP_b
  refine ⟨?_, ?_⟩
  · obtain ⟨k1, -⟩ := (fCr_kkt hm hs (a := []) (by simp) (tq_licq hd (.inl rfl)) x).2.2 (fun _ => 0) (fun i => 0)
      (fun j hj => by
        obtain rfl : j = 0 := by omega
        rw [hd, testQP_lag]; ring)
      (fun i hi => by simp at hi) (fun i _ hi => rfl)
    exact (k1 0 (by norm_num)).symm
  · obtain ⟨k1, k2⟩ := (fCr_kkt hm hs (a := [0]) (by simp [hnr]) (tq_licq hd (.inr (.inl rfl))) x).2.2 (fun _ => x 0 + 1) (fun i => if i = 0 then -(x 0 + 1) else 0)
      (fun j hj => by
        obtain rfl : j = 0 := by omega
        rw [hd, testQP_lag]; norm_num)
      (fun i hi => by
        obtain rfl : i = 0 := by simpa using hi
        rw [hd, (testQP_lhs _ _).1, hb, b0]; ring)
      (fun i _ hi => if_neg (by simpa using hi))
    obtain ⟨k3, k4⟩ := (fCr_kkt hm hs (a := [1]) (by simp [hnr]) (tq_licq hd (.inr (.inr rfl))) x).2.2 (fun _ => x 0 - 1) (fun i => if i = 1 then x 0 - 1 else 0)
      (fun j hj => by
        obtain rfl : j = 0 := by omega
        rw [hd, testQP_lag]; norm_num)
      (fun i hi => by
        obtain rfl : i = 1 := by simpa using hi
        rw [hd, (testQP_lhs _ _).2.1, hb, b1]; ring)
      (fun i _ hi => if_neg (by simpa using hi))
    exact ⟨(k1 0 (by norm_num)).symm, by rw [← k2 0 (by omega)]; simp, (k3 0 (by norm_num)).symm, by rw [← k4 1 (by omega)]; simp⟩

/-- the coefficients of a region with `u(x) = α x + β` -/
theorem tq_coef {a : List ℕ} {α β : ℝ} (h : ∀ x : ℕ → ℝ, q.fu' a 1 x 0 = α * x 0 + β) :
    (q.fCr a).ux.e 0 0 = α ∧ (q.fCr a).u0.e 0 = β ∧ (q.fCr a).Vxx.e 0 0 = α ^ 2 ∧ (q.fCr a).Vx.e 0 = α * β ∧ (q.fCr a).V0 = β ^ 2 / 2 := by
  have hs := tq_shape hd
  have hu : ∀ x : ℝ, (q.fCr a).ux.e 0 0 * x + (q.fCr a).u0.e 0 = α * x + β := by
    intro x
    have := h fun _ => x
    unfold fu' at this
    rwa [Finset.sum_range_one] at this
  have s2 : q.Hux.nc = 1 := hs.Hux_nc
  have hV : ∀ x : ℝ, 1 / 2 * (x * (q.fCr a).Vxx.e 0 0 * x) + (q.fCr a).Vx.e 0 * x + (q.fCr a).V0 = (α * x + β) ^ 2 / 2 := by
    intro x
    have e := fCr_V (a := a) hm hs (x := ⟨1, fun _ => x⟩) rfl
    rw [hd, testQP_cost, h] at e
    have v1 : (q.fVxx a).nr = 1 := s2
    have v2 : (q.fVxx a).nc = 1 := s2
    have v3 : (q.fVx a).n = 1 := s2
    have k1 : np.dotVM (⟨1, fun _ => x⟩ : Vec ℝ) (q.fVxx a) = .ok _ := if_pos v1.symm
    have k2 : np.dotVV (Mat.vecMul (⟨1, fun _ => x⟩ : Vec ℝ) (q.fVxx a)) (⟨1, fun _ => x⟩ : Vec ℝ) = .ok _ := if_pos v2
    have k3 : np.dotVV (q.fVx a) (⟨1, fun _ => x⟩ : Vec ℝ) = .ok _ := if_pos v3
    unfold CritReg.V at e
    rw [show (q.fCr a).Vxx = q.fVxx a from rfl, show (q.fCr a).Vx = q.fVx a from rfl, k1, Py.ok_bind, k2, Py.ok_bind, k3, Py.ok_bind] at e
    have e := Except.ok.inj e
    simp only [Mat.vecMul, Vec.dot, v2, v3, Finset.sum_range_one] at e
    exact e
  have u0 := hu 0
  have u1 := hu 1
  have v0 := hV 0
  have v1 := hV 1
  have v2 := hV (-1)
  have e0 : (q.fCr a).V0 = β ^ 2 / 2 := by linarith
  exact ⟨by linarith, by linarith, by linarith, by linarith, e0⟩

omit hm in
/-- a row of a region -/
theorem tq_row {a : List ℕ} {k : ℕ} {c d : ℝ} (hk : k < a.length + (q.inactive a).length)
    (h : ∀ x : ℝ, (q.fAcr a).e k 0 * x - (q.fBcr a).e k = c * x - d) (hc : c = 0 ∨ c = 1 ∨ c = -1) :
    (q.fCr a).polyhedron.A.e k 0 = c ∧ (q.fCr a).polyhedron.b.e k = d := by
  have hs := tq_shape hd
  have h0 := h 0
  have h1 := h 1
  have e1 : (q.fAcr a).e k 0 = c := by linarith
  have e2 : (q.fBcr a).e k = d := by linarith
  have v : vnorm ((q.fPoly a).A.row k) = |c| := by
    unfold vnorm
    rw [show ((q.fPoly a).A.row k).n = 1 from hs.Ax, Finset.sum_range_one, show ((q.fPoly a).A.row k).e 0 = c from e1, Real.sqrt_sq_eq_abs]
  obtain ⟨c1, c2⟩ := normalize_row (p := q.fPoly a) (i := k) hk
  have c1 := c1 0
  rw [v] at c1 c2
  have e1 : (q.fPoly a).A.e k 0 = c := e1
  have e2 : (q.fPoly a).b.e k = d := e2
  rw [e1] at c1
  rw [e2] at c2
  refine ⟨c1.trans ?_, c2.trans ?_⟩ <;> rcases hc with rfl | rfl | rfl <;> norm_num

/-- the rows of the regions -/
theorem tq_rows {a : List ℕ} (ha : a = [] ∨ a = [0] ∨ a = [1]) : (q.fCr a).polyhedron.A.nr = 4 ∧ ∀ i < 4,
    (q.fCr a).polyhedron.A.e i 0 = (if a = [] then (if i = 0 ∨ i = 3 then -1 else 1) else if i = 1 then 0 else if i = 2 then 1 else if i = 3 then -1 else
      if a = [0] then 1 else -1) ∧
    (q.fCr a).polyhedron.b.e i = (if a = [] then (if i < 2 then 1 else 2) else if i = 0 then -1 else 2) := by
  have hs := tq_shape hd
  have hnr : q.Ax.nr = 4 := congrArg (fun P : Spec.ParamQP => P.Ax.nr) hd
  have hin : q.inactive a = (List.range 4).filter (· ∉ a) := by unfold inactive; rw [hnr]
  have hlen : (q.fCr a).polyhedron.A.nr = a.length + (q.inactive a).length := (C07 1 _ (fPoly_inv (a := a) hs) 1e-7 (by norm_num)).2.1
  obtain ⟨b0, b1, b2, b3⟩ := testQP_b
  have hb := tq_b hd
  have hv := fun x : ℝ => tq_values hm hd fun _ => x
  have hl := fun u x : ℕ → ℝ => testQP_lhs u x
  have hcon := fun (x : ℝ) k => fAcr_con (a := a) hm hs (fun _ => x) k
  simp only [Finset.sum_range_one, hd] at hcon
  rcases ha with rfl | rfl | rfl
  · have hin' : q.inactive [] = [0, 1, 2, 3] := hin
    rw [hin'] at hlen
    simp only [hin'] at hcon
    refine ⟨hlen, fun i hi => tq_row hd (by rw [hin']; exact hi) (fun x => ?_) ?_⟩
    · have e := hcon x i
      rw [List.length_nil, Nat.zero_add] at e
      rw [e, hb]
      interval_cases i <;> simp [hl, hv, b0, b1, b2, b3]
    · interval_cases i <;> simp
  · have hin' : q.inactive [0] = [1, 2, 3] := hin
    rw [hin'] at hlen
    simp only [hin'] at hcon
    refine ⟨hlen, fun i hi => tq_row hd (by rw [hin']; exact hi) (fun x => ?_) ?_⟩
    · rcases i with _ | i
      · have e := fAcr_mul (a := [0]) hs (tq_licq hd (.inr (.inl rfl))) (fun _ => x) (k := 0) (by simp)
        rw [Finset.sum_range_one] at e
        rw [e]
        simp [hv]
        try ring
      · have e := hcon x i
        rw [List.length_singleton, Nat.add_comm] at e
        rw [e, hb]
        have : i < 3 := by omega
        interval_cases i <;> (simp [hl, hv, b0, b1, b2, b3]; try norm_num)
    · interval_cases i <;> simp
  · have hin' : q.inactive [1] = [0, 2, 3] := hin
    rw [hin'] at hlen
    simp only [hin'] at hcon
    refine ⟨hlen, fun i hi => tq_row hd (by rw [hin']; exact hi) (fun x => ?_) ?_⟩
    · rcases i with _ | i
      · have e := fAcr_mul (a := [1]) hs (tq_licq hd (.inr (.inr rfl))) (fun _ => x) (k := 0) (by simp)
        rw [Finset.sum_range_one] at e
        rw [e]
        simp [hv]
        try ring
      · have e := hcon x i
        rw [List.length_singleton, Nat.add_comm] at e
        rw [e, hb]
        have : i < 3 := by omega
        interval_cases i <;> (simp [hl, hv, b0, b1, b2, b3]; try norm_num)
    · interval_cases i <;> simp

/-- the points of the search -/
theorem tq_reached {L : Lib} (hL : LibSpec L) {xa : Vec ℝ × List ℕ} (h : Reached L q 1e-5 xa) : xa.1.n = 1 ∧
    (xa.1.e 0 = 0 ∨ xa.1.e 0 = 1 - 1e-5 ∨ xa.1.e 0 = -1 + 1e-5 ∨ xa.1.e 0 = 1 + 1e-5 ∨ xa.1.e 0 = -1 - 1e-5 ∨ xa.1.e 0 = 2 + 1e-5 ∨ xa.1.e 0 = -2 - 1e-5) := by
  refine ⟨reached_size hm (tq_shape hd) h, ?_⟩
  cases h with
  | start => exact .inl rfl
  | next h1 h2 h3 h4 =>
    obtain ⟨-, a, i, rfl, ha, hl, hi, e⟩ := step_from hL hm (tq_shape hd) h2 h3 h4
    rw [tq_nr hd] at ha hi
    have ha := testQP_licq_only ha (hd ▸ hl)
    obtain ⟨r1, r2⟩ := (tq_rows hm hd ha).2 i hi
    rw [r1, r2] at e
    rcases ha with rfl | rfl | rfl <;> interval_cases i <;> norm_num at e <;> rw [e] <;> norm_num

/-- the regions of `explicit_solve` -/
theorem tq_regions {L : Lib} {fuel : ℕ} {sol : ExplicitSolution} (h : q.explicit_solve L fuel = .ok (some sol)) {cr : CritReg} (hcr : cr ∈ sol) :
    ∃ a : List ℕ, (a = [] ∨ a = [0] ∨ a = [1]) ∧ Like cr (q.fCr a) := by
  obtain ⟨k, hk⟩ := List.getElem?_of_mem hcr
  obtain ⟨⟨x0, g0, cr0, l, k1, k2, hlike, -⟩, -⟩ := (C43 L 1 1 q hm (tq_shape hd) _ fuel _ sol h).2 k cr hk
  obtain ⟨a, hrun⟩ := point_from k1
  obtain ⟨ha, hla, rfl⟩ := explicit_cases hm (tq_shape hd) hrun
  rw [tq_nr hd] at ha
  exact ⟨a, testQP_licq_only ha (hd ▸ hla), hlike⟩

/-- points found in a region -/
theorem tq_inside {a : List ℕ} (ha : a = [] ∨ a = [0] ∨ a = [1]) {x : Vec ℝ} (hx : x.n = 1) (h : (q.fCr a).contains x = .ok true) :
    -2 - 1e-7 ≤ x.e 0 ∧ x.e 0 ≤ 2 + 1e-7 ∧ (a = [] → -1 - 1e-7 ≤ x.e 0 ∧ x.e 0 ≤ 1 + 1e-7) ∧ (a = [0] → x.e 0 ≤ -1 + 1e-7) ∧ (a = [1] → 1 - 1e-7 ≤ x.e 0) := by
  obtain ⟨n, hr⟩ := tq_rows hm hd ha
  obtain ⟨r, k1, -, k2⟩ := C08_partial 1 _ (fCr_inv (a := a) (tq_shape hd)) (by omega) x hx 1e-7
  rw [show (q.fCr a).polyhedron.contains x 1e-7 = .ok true from h] at k1
  obtain ⟨k3, -⟩ := k2 (Except.ok.inj k1).symm
  rw [n] at k3
  simp only [Finset.sum_range_one] at k3
  have h0 := k3 0 (by norm_num)
  have h1 := k3 1 (by norm_num)
  have h2 := k3 2 (by norm_num)
  have h3 := k3 3 (by norm_num)
  rw [(hr 0 (by norm_num)).1, (hr 0 (by norm_num)).2] at h0
  rw [(hr 1 (by norm_num)).1, (hr 1 (by norm_num)).2] at h1
  rw [(hr 2 (by norm_num)).1, (hr 2 (by norm_num)).2] at h2
  rw [(hr 3 (by norm_num)).1, (hr 3 (by norm_num)).2] at h3
  rcases ha with rfl | rfl | rfl <;> norm_num at h0 h1 h2 h3 ⊢
  · exact ⟨by linarith, by linarith, by linarith, by linarith⟩
  · exact ⟨by linarith, by linarith, by linarith⟩
  · exact ⟨by linarith, by linarith, by linarith⟩

/-- the points of the regions -/
theorem tq_mem {a : List ℕ} (ha : a = [] ∨ a = [0] ∨ a = [1]) (x : ℕ → ℝ) : (q.fCr a).polyhedron.Mem x ↔
    -2 ≤ x 0 ∧ x 0 ≤ 2 ∧ (a = [] → -1 ≤ x 0 ∧ x 0 ≤ 1) ∧ (a = [0] → x 0 ≤ -1) ∧ (a = [1] → 1 ≤ x 0) := by
  obtain ⟨n, hr⟩ := tq_rows hm hd ha
  have hC : (q.fCr a).polyhedron.C.nr = 0 := (C07 1 _ (fPoly_inv (a := a) (tq_shape hd)) 1e-7 (by norm_num)).2.2.1
  have hnc : (q.fCr a).polyhedron.A.nc = 1 := (fCr_inv (a := a) (tq_shape hd)).1
  have hiff : (q.fCr a).polyhedron.Mem x ↔ ∀ i < 4, (q.fCr a).polyhedron.A.e i 0 * x 0 ≤ (q.fCr a).polyhedron.b.e i := by
    show Spec.InPoly _ _ _ _ x ↔ _
    unfold Spec.InPoly
    simp only [hC, hnc, n, Finset.sum_range_one]
    simp
  rw [hiff]
  constructor
  · intro k3
    have h0 := k3 0 (by norm_num)
    have h1 := k3 1 (by norm_num)
    have h2 := k3 2 (by norm_num)
    have h3 := k3 3 (by norm_num)
    rw [(hr 0 (by norm_num)).1, (hr 0 (by norm_num)).2] at h0
    rw [(hr 1 (by norm_num)).1, (hr 1 (by norm_num)).2] at h1
    rw [(hr 2 (by norm_num)).1, (hr 2 (by norm_num)).2] at h2
    rw [(hr 3 (by norm_num)).1, (hr 3 (by norm_num)).2] at h3
    rcases ha with rfl | rfl | rfl <;> norm_num at h0 h1 h2 h3 ⊢
    · exact ⟨by linarith, by linarith, by linarith, by linarith⟩
    · exact ⟨by linarith, by linarith, by linarith⟩
    · exact ⟨by linarith, by linarith, by linarith⟩
  · intro h i hi
    rw [(hr i hi).1, (hr i hi).2]
    rcases ha with rfl | rfl | rfl <;> norm_num at h <;> interval_cases i <;> norm_num <;> linarith

/-- the answers of the solver at the points of the search -/
theorem tq_answer {L : Lib} (hL : LibSpec L) {xa : Vec ℝ × List ℕ} (h : Reached L q 1e-5 xa) :
    q.solve L xa.1 = .ok Sol.none ∧ (xa.1.e 0 < -2 ∨ 2 < xa.1.e 0) ∨
    ∃ (s : Sol) (lam : Vec ℝ) (act : List ℕ), q.solve L xa.1 = .ok s ∧ s.multiplier_inequality = some lam ∧ s.active_set = some act ∧
      q.data.Licq 1 act ∧ ∀ i < 4, 1e-7 < lam.e i ∨ lam.e i = 0 := by
  obtain ⟨hn, hx⟩ := tq_reached hm hd hL h
  obtain ⟨h1, h2⟩ := tq_solve hd hL xa.1 hn
  by_cases hout : xa.1.e 0 < -2 ∨ 2 < xa.1.e 0
  · exact .inl ⟨h2 hout, hout⟩
  · right
    push Not at hout
    obtain ⟨s, u, lam, act, g1, -, -, -, g2, -, g3, g4, g5, g6⟩ := h1 hout.1 hout.2
    have hx' : (-2 : ℝ) < xa.1.e 0 ∧ xa.1.e 0 < 2 := by
      rcases hx with h | h | h | h | h | h | h <;> rw [h] at hout ⊢ <;> norm_num at hout <;> norm_num
    obtain ⟨p2, p3, c1, c2, c3⟩ := testQP_sol g3 hx'.1 hx'.2
    have hlam : (lam.e 0 = 0 ∧ lam.e 1 = 0) ∨ (lam.e 0 = 1e-5 ∧ lam.e 1 = 0) ∨ (lam.e 0 = 0 ∧ lam.e 1 = 1e-5) := by
      rcases hx with h | h | h | h | h | h | h <;> rw [h] at c1 c2 c3 hout <;> norm_num at c1 c2 c3 hout
      · exact .inl c1.2
      · exact .inl c1.2
      · exact .inl c1.2
      · right; right; norm_num; exact c3.2
      · right; left; norm_num; exact c2.2
    have hgap : ∀ i < 4, 1e-7 < lam.e i ∨ lam.e i = 0 := by
      intro i hi
      rcases hlam with ⟨e0, e1⟩ | ⟨e0, e1⟩ | ⟨e0, e1⟩ <;> interval_cases i <;> first
        | exact .inr ‹_›
        | (left; rw [e0]; norm_num)
        | (left; rw [e1]; norm_num)
    refine ⟨s, lam, act, g1, g2, g4, tq_licq hd ?_, hgap⟩
    have hnd : act.Nodup := g5.imp fun h => h.ne
    have hact : ∀ i ∈ act, (i = 0 ∧ lam.e 0 ≠ 0) ∨ (i = 1 ∧ lam.e 1 ≠ 0) := by
      intro i hi
      obtain ⟨k1, k2⟩ := (g6 i).1 hi
      have k3 : lam.e i ≠ 0 := fun h => by rw [h] at k2; norm_num at k2
      interval_cases i
      · exact .inl ⟨rfl, k3⟩
      · exact .inr ⟨rfl, k3⟩
      · exact absurd p2 k3
      · exact absurd p3 k3
    have hall : (∀ i ∈ act, i = 0) ∨ ∀ i ∈ act, i = 1 := by
      rcases hlam with ⟨e0, e1⟩ | ⟨e0, e1⟩ | ⟨e0, e1⟩
      · exact .inl fun i hi => (hact i hi).elim (·.1) fun h => absurd e1 h.2
      · exact .inl fun i hi => (hact i hi).elim (·.1) fun h => absurd e1 h.2
      · exact .inr fun i hi => (hact i hi).elim (fun h => absurd e0 h.2) (·.1)
    match act, hnd, hall with
    | [], _, _ => exact .inl rfl
    | [i], _, h => exact .inr (h.imp (fun h => by rw [h i (by simp)]) fun h => by rw [h i (by simp)])
    | i :: j :: l, hn, h =>
      exfalso
      simp only [List.nodup_cons, List.mem_cons, not_or] at hn
      rcases h with h | h
      · exact hn.1.1 ((h i (by simp)).trans (h j (by simp)).symm)
      · exact hn.1.1 ((h i (by simp)).trans (h j (by simp)).symm)

/-- `explicit_solve` ends, raises nothing, and its regions contain the feasible parameters -/
theorem tq_search {L : Lib} (hL : LibSpec L) : ∃ N, ∀ fuel ≥ N, ∃ sol : ExplicitSolution, q.explicit_solve L fuel = .ok (some sol) ∧
    ∀ x : Vec ℝ, x.n = 1 → -2 ≤ x.e 0 → x.e 0 ≤ 2 → ∃ cr ∈ sol, cr.contains x = .ok true := by
  have hs := tq_shape hd
  have hnr := tq_nr hd
  obtain ⟨N, hN⟩ := C84_partial L hL 1 1 q hm hs one_pos (by omega) 1e-5 (fun xa hxa _ s lam h1 h2 i hi => by
    rcases tq_answer hm hd hL hxa with ⟨h3, -⟩ | ⟨s', lam', act, h3, h4, -, -, h5⟩
    · rw [h1] at h3
      cases h3
      cases h2
    · rw [h1] at h3
      cases h3
      rw [h2] at h4
      cases h4
      exact h5 i (by omega))
  refine ⟨N, fun fuel hf => ?_⟩
  obtain ⟨r, h1, h2, -⟩ := hN fuel hf
  obtain ⟨r', h3⟩ := C123_partial L hL 1 q hm hs one_pos (by omega) 1e-5 (fun xa hxa cr hcr => by
    obtain ⟨a, hrun⟩ := point_from hcr
    obtain ⟨ha, hla, rfl⟩ := explicit_cases hm hs hrun
    rw [hnr] at ha
    have ha := testQP_licq_only ha (hd ▸ hla)
    have hmem := tq_mem hm hd ha
    rcases ha with rfl | rfl | rfl
    · exact ⟨fun _ => 0, (hmem _).2 (by norm_num), by norm_num⟩
    · exact ⟨fun _ => -1, (hmem _).2 (by norm_num), by norm_num⟩
    · exact ⟨fun _ => 1, (hmem _).2 (by norm_num), by norm_num⟩) fuel
  rw [h3] at h1
  subst h1
  cases r' with
  | none => exact absurd rfl h2
  | some sol =>
    refine ⟨sol, h3, fun x hx x1 x2 => ?_⟩
    have hfeas : ∀ x : ℕ → ℝ, -2 ≤ x 0 → x 0 ≤ 2 → ∃ u, q.data.Feas 1 1 u x := fun x h1 h2 =>
      ⟨fun _ => x 0, by rw [hd]; exact (testQP_feas _ _).2 ⟨by linarith, by linarith, h2, by linarith⟩⟩
    obtain ⟨cr, k1, -, k2⟩ := C122_partial L hL 1 q hm hs one_pos (by omega) 1e-5 (by norm_num) fuel sol h3
      (fun cr hcr i hi => by
        obtain ⟨a, ha, P, ⟨e1, -⟩, rfl⟩ := tq_regions hm hd h3 hcr
        obtain ⟨n, hr⟩ := tq_rows hm hd ha
        simp only [e1] at hi ⊢
        rw [n] at hi
        rw [(hr i hi).1]
        split_ifs <;> norm_num)
      (fun xa hxa hu => by
        rcases tq_answer hm hd hL hxa with ⟨-, h4⟩ | ⟨s', lam', act, h4, h5, h6, h7, h8⟩
        · obtain ⟨u, hu⟩ := hu
          rw [hd] at hu
          obtain ⟨-, -, f1, f2⟩ := (testQP_feas _ _).1 hu
          exfalso
          rcases h4 with h4 | h4 <;> linarith
        · exact ⟨s', lam', act, h4, h5, h6, h7, by rw [hnr]; exact h8⟩)
      (hfeas _ (by norm_num) (by norm_num))
      (fun x hu => by
        have hx : -2 ≤ x ∧ x ≤ 2 := by
          obtain ⟨u, hu⟩ := hu
          rw [hd] at hu
          obtain ⟨-, -, f1, f2⟩ := (testQP_feas _ _).1 hu
          exact ⟨by linarith, f1⟩
        have hstrict : ∀ (a : List ℕ) (y z : ℝ) (u p0 p1 : ℝ → ℝ), (∀ t, y < t → t < z → -2 < t ∧ t < 2 ∧ u t + p0 t - p1 t = 0 ∧
            ((a = [] ∧ u t - t < 1 ∧ t - u t < 1 ∧ p0 t = 0 ∧ p1 t = 0) ∨ (a = [0] ∧ u t - t = 1 ∧ p1 t = 0 ∧ 0 < p0 t) ∨
              (a = [1] ∧ t - u t = 1 ∧ p0 t = 0 ∧ 0 < p1 t))) → StrictBetween q.data 1 a y z := by
          intro a y z u p0 p1 h t t1 t2
          obtain ⟨s1, s2, s3, s4⟩ := h t t1 t2
          rw [hd]
          obtain ⟨b0, b1, b2, b3⟩ := testQP_b
          refine ⟨fun _ => u t, fun i => if i = 0 then p0 t else if i = 1 then p1 t else 0, (testQP_kkt _ _ _).2 ?_, ?_, ?_⟩
          · norm_num
            rcases s4 with ⟨-, c1, c2, c3, c4⟩ | ⟨-, c1, c2, c3⟩ | ⟨-, c1, c2, c3⟩
            · refine ⟨⟨by linarith, by linarith, by linarith, by linarith⟩, by linarith, ⟨by linarith, by linarith⟩, .inl c3, .inl c4⟩
            · refine ⟨⟨by linarith, by linarith, by linarith, by linarith⟩, by linarith, ⟨by linarith, by linarith⟩, .inr (by linarith), .inl c2⟩
            · refine ⟨⟨by linarith, by linarith, by linarith, by linarith⟩, by linarith, ⟨by linarith, by linarith⟩, .inl c2, .inr (by linarith)⟩
          · intro i hi
            rcases s4 with ⟨rfl, c1, c2, c3, c4⟩ | ⟨rfl, c1, c2, c3⟩ | ⟨rfl, c1, c2, c3⟩
            · simp at hi
            · obtain rfl : i = 0 := by simpa using hi
              exact c3
            · obtain rfl : i = 1 := by simpa using hi
              exact c3
          · intro i hi hia
            obtain ⟨l0, l1, l2, l3⟩ := testQP_lhs (fun _ => u t) fun _ => t
            have hi : i < 4 := hi
            interval_cases i
            · rw [l0, b0]
              rcases s4 with ⟨rfl, c1, c2, c3, c4⟩ | ⟨rfl, c1, c2, c3⟩ | ⟨rfl, c1, c2, c3⟩
              · exact c1
              · simp at hia
              · linarith
            · rw [l1, b1]
              rcases s4 with ⟨rfl, c1, c2, c3, c4⟩ | ⟨rfl, c1, c2, c3⟩ | ⟨rfl, c1, c2, c3⟩
              · exact c2
              · linarith
              · simp at hia
            · rw [l2, b2]; exact s2
            · rw [l3, b3]; linarith
        rcases le_total x (-1) with h4 | h4
        · exact ⟨[0], -2, -1, by simp [hnr], tq_licq hd (.inr (.inl rfl)), hx.1, h4, by rw [hnr]; norm_num,
            hstrict _ _ _ (fun t => t + 1) (fun t => -(t + 1)) (fun _ => 0) fun t t1 t2 => ⟨t1, by linarith, by ring, .inr (.inl ⟨rfl, by ring, rfl, by linarith⟩)⟩⟩
        · rcases le_total x 1 with h5 | h5
          · exact ⟨[], -1, 1, by simp, tq_licq hd (.inl rfl), h4, h5, by rw [hnr]; norm_num,
              hstrict _ _ _ (fun t => 0) (fun _ => 0) (fun _ => 0) fun t t1 t2 => ⟨by linarith, by linarith, by ring, .inl ⟨rfl, by linarith, by linarith, rfl, rfl⟩⟩⟩
          · exact ⟨[1], 1, 2, by simp [hnr], tq_licq hd (.inr (.inr rfl)), h5, hx.2, by rw [hnr]; norm_num,
              hstrict _ _ _ (fun t => t - 1) (fun _ => 0) (fun t => t - 1) fun t t1 t2 => ⟨by linarith, t2, by ring, .inr (.inr ⟨rfl, by ring, rfl, by linarith⟩)⟩⟩)
      x hx (hfeas _ x1 x2)
    exact ⟨cr, k1, k2⟩

/-- the comparison at a parameter away from the ends of the regions -/
theorem tq_point {L : Lib} (hL : LibSpec L) {fuel : ℕ} {sol : ExplicitSolution} (h : q.explicit_solve L fuel = .ok (some sol))
    (hcov : ∀ x : Vec ℝ, x.n = 1 → -2 ≤ x.e 0 → x.e 0 ≤ 2 → ∃ cr ∈ sol, cr.contains x = .ok true) (x : ℝ)
    (hx : x < -2 - 1e-7 ∨ -2 < x ∧ x < -1 - 1e-7 ∨ -1 + 1e-7 < x ∧ x < 1 - 1e-7 ∨ 1 + 1e-7 < x ∧ x < 2 ∨ 2 + 1e-7 < x) :
    TestSuite.checkPoint L q sol (TestSuite.at1 x) = .ok () := by
  have hs := tq_shape hd
  have hnr := tq_nr hd
  have hn : (TestSuite.at1 x).n = 1 := rfl
  have hex : (TestSuite.at1 x).e 0 = x := rfl
  have hlook := C42_partial L hL 1 1 q hm hs (by omega) sol (fun cr hcr => by
    obtain ⟨a, ha, hlike⟩ := tq_regions hm hd h hcr
    refine ⟨a, q.fCr a, explicit_some hm hs (fun i hi => ?_) (tq_licq hd ha), hlike⟩
    rcases ha with rfl | rfl | rfl <;> simp at hi <;> omega) (TestSuite.at1 x) rfl
  obtain ⟨s1, s2⟩ := tq_solve hd hL (TestSuite.at1 x) rfl
  rw [hex] at s1 s2
  have hcontains : ∀ cr ∈ sol, cr.contains (TestSuite.at1 x) = .ok true → -2 ≤ x ∧ x ≤ 2 ∧ cr.polyhedron.Mem (TestSuite.at1 x).e := by
    intro cr hcr hc
    obtain ⟨a, ha, hlike⟩ := tq_regions hm hd h hcr
    rw [hlike.contains] at hc
    rw [hlike.mem, tq_mem hm hd ha, hex]
    obtain ⟨i1, i2, i3, i4, i5⟩ := tq_inside hm hd ha hn hc
    rw [hex] at i1 i2 i3 i4 i5
    have he : (0 : ℝ) < 1e-7 := by norm_num
    generalize (1e-7 : ℝ) = ε at hx i1 i2 i3 i4 i5 he
    have hx2 : -2 ≤ x ∧ x ≤ 2 := by
      rcases hx with h | ⟨h, h'⟩ | ⟨h, h'⟩ | ⟨h, h'⟩ | h <;> constructor <;> linarith
    refine ⟨hx2.1, hx2.2, hx2.1, hx2.2, fun h => ?_, fun h => ?_, fun h => ?_⟩
    · obtain ⟨i, j⟩ := i3 h
      rcases hx with h | ⟨h, h'⟩ | ⟨h, h'⟩ | ⟨h, h'⟩ | h <;> constructor <;> linarith
    · have i := i4 h
      rcases hx with h | ⟨h, h'⟩ | ⟨h, h'⟩ | ⟨h, h'⟩ | h <;> linarith
    · have i := i5 h
      rcases hx with h | ⟨h, h'⟩ | ⟨h, h'⟩ | ⟨h, h'⟩ | h <;> linarith
  rcases hlook with ⟨l1, l2, l3, l4⟩ | ⟨i, cr, l1, l2, -, u, p, v, l9, l3, -, l4, l5, l6, l7, l8, -⟩
  · have hout : x < -2 ∨ 2 < x := by
      by_contra hin
      push Not at hin
      obtain ⟨cr, hcr, hc⟩ := hcov (TestSuite.at1 x) rfl hin.1 hin.2
      rw [l1 cr hcr] at hc
      cases hc
    unfold TestSuite.checkPoint
    rw [s2 hout, l2, l3, l4]
    rfl
  · obtain ⟨h1, h2, hmem⟩ := hcontains cr (List.mem_of_getElem? l1) l2
    obtain ⟨-, hk, -⟩ := l8 hmem
    obtain ⟨s, u', lam, act, g1, g2, g3, g4, g5, g6, g7, -⟩ := s1 h1 h2
    rw [hd] at hk
    rw [hd, testQP_cost] at l7
    have hx' : -2 < x ∧ x < 2 := by
      have he : (0 : ℝ) < 1e-7 := by norm_num
      generalize (1e-7 : ℝ) = ε at hx he
      rcases hx with h | ⟨h, h'⟩ | ⟨h, h'⟩ | ⟨h, h'⟩ | h <;> constructor <;> linarith
    obtain ⟨p2, p3, c1, c2, c3⟩ := testQP_sol hk hx'.1 hx'.2
    obtain ⟨p2', p3', c1', c2', c3'⟩ := testQP_sol g7 hx'.1 hx'.2
    rw [hex] at c1 c2 c3 c1' c2' c3'
    have hval : u'.e 0 = u.e 0 ∧ lam.e 0 = p.e 0 ∧ lam.e 1 = p.e 1 := by
      rcases le_total x (-1) with h | h
      · have e := c2 h
        have e' := c2' h
        exact ⟨by linarith, by linarith, by linarith⟩
      · rcases le_total x 1 with h5 | h5
        · have e := c1 h h5
          have e' := c1' h h5
          exact ⟨by linarith, by linarith, by linarith⟩
        · have e := c3 h5
          have e' := c3' h5
          exact ⟨by linarith, by linarith, by linarith⟩
    have hsize : u.n = 1 ∧ p.n = 4 := by
      obtain ⟨a, -, P, -, rfl⟩ := tq_regions hm hd h (List.mem_of_getElem? l1)
      obtain ⟨u1, m1, m2, -⟩ := fCr_u (a := a) hm hs hn
      obtain ⟨p1, m3, m4, -⟩ := fCr_p (a := a) hs hn
      obtain rfl : u1 = u := Except.ok.inj (m1.symm.trans l9)
      obtain rfl : p1 = p := Except.ok.inj (m3.symm.trans l3)
      exact ⟨m2, m4.trans hnr⟩
    have t1 : TestSuite.assertAlmostEqual (u'.e 0 ^ 2 / 2) v = .ok () := by
      unfold TestSuite.assertAlmostEqual TestSuite.assertTrue
      rw [l7, hval.1, sub_self]
      norm_num
    have t2 : TestSuite.assertArrayAlmostEqual (some u') (some u) = .ok () := by
      unfold TestSuite.assertArrayAlmostEqual TestSuite.assertTrue
      refine if_pos (decide_eq_true ⟨g4.trans hsize.1.symm, fun i hi => ?_⟩)
      rw [g4] at hi
      obtain rfl : i = 0 := by omega
      rw [hval.1, sub_self]
      norm_num
    have t3 : TestSuite.assertArrayAlmostEqual (some lam) (some p) = .ok () := by
      unfold TestSuite.assertArrayAlmostEqual TestSuite.assertTrue
      refine if_pos (decide_eq_true ⟨g6.trans hsize.2.symm, fun i hi => ?_⟩)
      have e : lam.e i = p.e i := by
        rw [g6] at hi
        interval_cases i
        exacts [hval.2.1, hval.2.2, p2'.trans p2.symm, p3'.trans p3.symm]
      rw [e, sub_self]
      norm_num
    unfold TestSuite.checkPoint
    rw [g1, Py.ok_bind, l6, Py.ok_bind, l4, Py.ok_bind, l5, Py.ok_bind, g2]
    simp only
    rw [t1, g3, g5, t2, t3]
    rfl

omit hm in
/-- the feasible set is `x ≤ 2`, `-x ≤ 2` -/
theorem tq_feasible {L : Lib} (hL : LibSpec L) (Q : Qhull) (rand : List (Vec ℝ) → Vec ℝ) (fuel : ℕ) : ∃ S : Poly,
    q.get_feasible_set L Q rand fuel = .ok (some S) ∧ S.A = ⟨2, 1, fun i _ => if i = 0 then 1 else -1⟩ ∧ S.b.n = 2 ∧ ∀ i < 2, S.b.e i = 2 := by
  have hs := tq_shape hd
  rw [feasible_run hs]
  set p := pairs q with hp
  have hI : p.Inv 2 := pairs_inv hs
  have hlen : (List.range 1).length = 1 := rfl
  have hd' : ∀ i ∈ List.range 1, i < p.A.nc := fun i hi => by
    rw [hI.1]
    have := List.mem_range.1 hi
    omega
  have hnd : (List.range 1).Nodup := List.nodup_range
  have heq : ∀ x, Spec.EqHold p.C p.d x := fun x i hi => absurd hi (Nat.not_lt_zero i)
  have hproj : ∀ y, Projection.Pr (List.range 1).length (Projection.reordered p.A (List.range 1)) p.b y ↔ HasFeas 1 1 q.data y := by
    intro y
    rw [Projection.pr_iff hd' hnd, ← pairs_proj hs]
    exact ⟨fun ⟨x, h1, h2⟩ => ⟨x, ⟨h1, heq x⟩, h2⟩, fun ⟨x, h1, h2⟩ => ⟨x, h1.1, h2⟩⟩
  have hfeas : ∀ y : ℕ → ℝ, HasFeas 1 1 q.data y ↔ -2 ≤ y 0 ∧ y 0 ≤ 2 := by
    intro y
    unfold HasFeas
    rw [hd]
    constructor
    · rintro ⟨u, hu⟩
      obtain ⟨-, -, f1, f2⟩ := (testQP_feas _ _).1 hu
      exact ⟨by linarith, f1⟩
    · rintro ⟨h1, h2⟩
      exact ⟨fun _ => y 0, (testQP_feas _ _).2 ⟨by linarith, by linarith, h2, by linarith⟩⟩
  have hbd : Spec.IsBounded 2 p.A p.b p.C p.d := by
    refine ⟨3, fun z hz j hj => ?_⟩
    have h := (pairs_mem hs z).1 hz
    rw [hd] at h
    obtain ⟨f0, f1, f2, f3⟩ := (testQP_feas _ _).1 h
    simp only [Nat.add_zero] at f0 f1
    rw [abs_le]
    interval_cases j <;> constructor <;> linarith
  have hne : Spec.NearPoint 2 p.A p.b p.C p.d := (near_feas hs).1
    ⟨fun _ => 0, fun _ => 0, by rw [hd]; exact (testQP_feas _ _).2 (by norm_num), by norm_num⟩
  have hB : Projection.Body (List.range 1).length (Projection.reordered p.A (List.range 1)) p.b := by
    refine Projection.body_reordered hd' hnd (by simp) hI.2.1 ?_ ?_
    · obtain ⟨x, hx, -⟩ := hne
      exact ⟨x, hx.1⟩
    · obtain ⟨R, hR⟩ := hbd
      exact ⟨R, fun x hx j hj => hR x ⟨hx, heq x⟩ j (by rw [← hI.1]; exact hj)⟩
  obtain ⟨v1, v2, h1, h2, p1, p2, hz, he⟩ := Projection.method_eq (Q := Q) hL hB hd' rand fuel
  rw [if_pos hlen] at he
  obtain ⟨q', -, -, -, -, hrun, -, -⟩ := project_run hL hI (Poly.hasRows_of_bounded (by norm_num) hbd) (by norm_num) (fun e h => by cases h) hne
    (.inl ⟨rfl, hbd⟩) rfl Q rand fuel (List.range 1)
  refine ⟨_, congrArg Prod.fst (hrun _ he rfl), rfl, rfl, ?_⟩
  have q1 := (hfeas _).1 ((hproj _).1 p1)
  have q2 := (hfeas _).1 ((hproj _).1 p2)
  obtain ⟨z, z1, z2⟩ := (hproj fun _ => 2).2 ((hfeas _).2 (by norm_num))
  obtain ⟨w, w1, w2⟩ := (hproj fun _ => -2).2 ((hfeas _).2 (by norm_num))
  have e2 : v2.e 0 = 2 := by
    have := (hz z z1).2
    have e := z2 0 (by rw [hlen]; norm_num)
    linarith [q2.2]
  have e1 : v1.e 0 = -2 := by
    have := (hz w w1).1
    have e := w2 0 (by rw [hlen]; norm_num)
    linarith [q1.1]
  intro i hi
  show (if i = 0 then max (v1.e 0) (v2.e 0) else -min (v1.e 0) (v2.e 0)) = 2
  rw [e1, e2]
  split_ifs <;> norm_num

end

theorem only_one {act : List ℕ} (h1 : act.Pairwise (· < ·)) (h2 : ∀ i, i ∈ act ↔ i = 1) : act = [1] := by
  match act, h1, h2 with
  | [], _, h => exact absurd ((h 1).2 rfl) (by simp)
  | [i], _, h => rw [(h i).1 (by simp)]
  | i :: j :: l, hp, h =>
    have e1 := (h i).1 (by simp)
    have e2 := (h j).1 (by simp)
    simp only [List.pairwise_cons] at hp
    have := hp.1 j (by simp)
    omega

theorem almost_self (a : ℝ) : TestSuite.assertAlmostEqual a a = .ok () := by
  unfold TestSuite.assertAlmostEqual TestSuite.assertTrue
  rw [sub_self]
  norm_num

theorem check_region {cr : CritReg} {α β : ℝ} (h : cr.ux.e 0 0 = α ∧ cr.u0.e 0 = β ∧ cr.Vxx.e 0 0 = α ^ 2 ∧ cr.Vx.e 0 = α * β ∧ cr.V0 = β ^ 2 / 2)
    {Vxx Vx V0 : ℝ} (h1 : Vxx = α ^ 2) (h2 : Vx = α * β) (h3 : V0 = β ^ 2 / 2) : TestSuite.checkRegion cr Vxx Vx V0 α β = .ok () := by
  obtain ⟨k1, k2, k3, k4, k5⟩ := h
  unfold TestSuite.checkRegion
  rw [k1, k2, k3, k4, k5, h1, h2, h3]
  simp only [almost_self, Py.ok_bind]

/-- `[[1, 2], [-1, 2]]` -/
noncomputable def expectedSet : Mat ℝ := (⟨2, 1, fun i _ => if i = 0 then 1 else -1⟩ : Mat ℝ).happ ⟨2, 1, fun _ _ => 2⟩

/-- the comparison of the feasible set -/
theorem same_interval {A : Mat ℝ} {b : Vec ℝ} (hA : A = ⟨2, 1, fun i _ => if i = 0 then 1 else -1⟩) (hb : ∀ i < 2, b.e i = 2) :
    Geom.same_rows expectedSet (A.happ ⟨b.n, 1, fun i _ => b.e i⟩) = .ok true := by
  subst hA
  have hs : ∀ i < 2, Real.sqrt (∑ j ∈ range 2, expectedSet.e i j ^ 2) = Real.sqrt 5 := by
    intro i hi
    congr 1
    rw [Finset.sum_range_succ, Finset.sum_range_one]
    interval_cases i <;> norm_num [expectedSet, Mat.happ]
  refine C28_partial expectedSet ((⟨2, 1, fun i _ => if i = 0 then 1 else -1⟩ : Mat ℝ).happ ⟨b.n, 1, fun i _ => b.e i⟩) rfl rfl (Equiv.refl (Fin 2)) (fun i j hj => ?_) true (fun _ i hi => ⟨0, by norm_num [expectedSet, Mat.happ], ?_⟩) ?_
  · have hj : j < 2 := hj
    have hi : (i : ℕ) < 2 := i.2
    interval_cases j
    · rfl
    · exact hb i hi
  · show (if i = 0 then (1 : ℝ) else -1) ≠ 0
    split_ifs <;> norm_num
  · intro i hi k hk hik
    refine ⟨0, by norm_num [expectedSet, Mat.happ], ?_⟩
    simp only [if_true]
    have hi : i < 2 := hi
    have hk : k < 2 := hk
    have e1 := hs i hi
    have e2 := hs k hk
    have hpos : (0 : ℝ) < Real.sqrt 5 := Real.sqrt_pos.2 (by norm_num)
    have hlt : Real.sqrt 5 < 3 := by rw [Real.sqrt_lt' (by norm_num)]; norm_num
    have key : ∀ c d : ℝ, |d| = 1 → |c - d| = 2 → 1e-8 + 1e-5 * |d / Real.sqrt 5| < |c / Real.sqrt 5 - d / Real.sqrt 5| := by
      intro c d h1 h2
      rw [← sub_div, abs_div, abs_div, h1, h2, abs_of_pos hpos, lt_div_iff₀ hpos, add_mul, mul_assoc, div_mul_cancel₀ _ hpos.ne']
      norm_num
      linarith
    have := key (if i = 0 then 1 else -1) (if k = 0 then 1 else -1) (by split_ifs <;> norm_num) (by
      have : (i = 0 ∧ k = 1) ∨ (i = 1 ∧ k = 0) := by omega
      rcases this with ⟨rfl, rfl⟩ | ⟨rfl, rfl⟩ <;> norm_num)
    have d1 : expectedSet.e i 0 / Real.sqrt (∑ j ∈ range expectedSet.nc, expectedSet.e i j ^ 2) = (if i = 0 then 1 else -1) / Real.sqrt 5 := congrArg₂ _ rfl e1
    have d2 : expectedSet.e k 0 / Real.sqrt (∑ j ∈ range expectedSet.nc, expectedSet.e k j ^ 2) = (if k = 0 then 1 else -1) / Real.sqrt 5 := congrArg₂ _ rfl e2
    rw [d1, d2]
    exact this

/-- C159: the test `test_solve` of the multiparametric quadratic programs passes.  Whatever linear and quadratic programming routines are used, as long as they meet their specifications, the
expected coefficients are found in the regions without active constraints, of the first constraint, and at `1.5`; `explicit_solve` ends; its result agrees with `solve` at the
five parameters; and the feasible set is the interval expected. -/
theorem C159 (L : Lib) (hL : LibSpec L) (Q : Qhull) (rand : List (Vec ℝ) → Vec ℝ) :
    ∃ N, ∀ fuel ≥ N, TestSuite.test_solve L Q rand fuel = .ok (some ()) := by
  obtain ⟨q, hi, hm, hd⟩ := init_made testQP_shape
  have hi : TestSuite.mpqp = .ok q := hi
  have hs := tq_shape hd
  have hnr := tq_nr hd
  obtain ⟨N, hN⟩ := tq_search hm hd hL
  refine ⟨N, fun fuel hf => ?_⟩
  obtain ⟨sol, hsol, hcov⟩ := hN fuel hf
  obtain ⟨S, f1, f2, f3, f4⟩ := tq_feasible hd hL Q rand fuel
  have r0 : q.explicit_solve_given_active_set [] = .ok (some (q.fCr [])) := explicit_some hm hs (by simp) (tq_licq hd (.inl rfl))
  have r1 : q.explicit_solve_given_active_set [0] = .ok (some (q.fCr [0])) := explicit_some hm hs (by simp [hnr]) (tq_licq hd (.inr (.inl rfl)))
  have c0 := tq_coef hm hd (a := []) (α := 0) (β := 0) fun x => by rw [(tq_values hm hd x).1]; ring
  have c1 := tq_coef hm hd (a := [0]) (α := 1) (β := 1) fun x => by rw [(tq_values hm hd x).2.1]; ring
  have c2 := tq_coef hm hd (a := [1]) (α := 1) (β := -1) fun x => by rw [(tq_values hm hd x).2.2.2.1]; ring
  obtain ⟨s, u, lam, act, s1, s2, s3, s4, s5, s6, s7, s8, s9, s10⟩ := (tq_solve hd hL (TestSuite.at1 1.5) rfl).1 (by norm_num [TestSuite.at1]) (by norm_num [TestSuite.at1])
  obtain ⟨p2, p3, -, -, v⟩ := testQP_sol s7 (by norm_num [TestSuite.at1]) (by norm_num [TestSuite.at1])
  obtain ⟨vu, p0, p1⟩ := v (by norm_num [TestSuite.at1])
  have hu : u.e 0 = 0.5 := by rw [vu]; norm_num [TestSuite.at1]
  have hp1 : lam.e 1 = 0.5 := by rw [p1]; norm_num [TestSuite.at1]
  obtain rfl : act = [1] := only_one s9 fun i => by
    rw [s10]
    constructor
    · rintro ⟨h1, h2⟩
      interval_cases i
      · rw [p0] at h2; norm_num at h2
      · rfl
      · rw [p2] at h2; norm_num at h2
      · rw [p3] at h2; norm_num at h2
    · rintro rfl
      exact ⟨by norm_num, by rw [hp1]; norm_num⟩
  have rp : q.explicit_solve_given_point L (TestSuite.at1 1.5) = .ok (some (q.fCr [1])) := by
    obtain ⟨-, -, g, -⟩ := C44_partial L hL 1 1 q hm hs one_pos (by omega) (TestSuite.at1 1.5) rfl
    rcases g with ⟨s', h1, h2, -⟩ | ⟨u', lam', s', act', h1, h2, h3, -, -, h4, -, -, -, h5⟩
    · rw [s1] at h1
      cases h1
      rw [s2] at h2
      cases h2
    · rw [s1] at h1
      cases h1
      rw [s8] at h4
      cases h4
      obtain ⟨cr, k1, k2, -⟩ := h5 (tq_licq hd (.inr (.inr rfl)))
      obtain ⟨-, -, rfl⟩ := explicit_cases hm hs k2
      exact k1
  have t1 : TestSuite.assertAlmostEqualO s.min 0.125 = .ok () := by
    rw [s2, hu]
    show TestSuite.assertAlmostEqual _ _ = _
    rw [show ((0.5 : ℝ) ^ 2 / 2) = 0.125 by norm_num]
    exact almost_self _
  have t2 : TestSuite.assertTrue (Geom.allclose s.argmin (some (TestSuite.at1 0.5))) = .ok () := by
    rw [s3]
    refine if_pos (decide_eq_true fun i hi => ?_)
    rw [s4] at hi
    obtain rfl : i = 0 := by omega
    rw [hu]
    norm_num [TestSuite.at1]
  have t3 : TestSuite.assertTrue (decide (s.active_set = some [1])) = .ok () := if_pos (decide_eq_true s8)
  have q1 := tq_point hm hd hL hsol hcov 0.5 (.inr (.inr (.inl (by norm_num))))
  have q2 := tq_point hm hd hL hsol hcov 1.5 (.inr (.inr (.inr (.inl (by norm_num)))))
  have q3 := tq_point hm hd hL hsol hcov (-1.5) (.inr (.inl (by norm_num)))
  have q4 := tq_point hm hd hL hsol hcov 2.5 (.inr (.inr (.inr (.inr (by norm_num)))))
  have q5 := tq_point hm hd hL hsol hcov (-2.5) (.inl (by norm_num))
  have t4 := same_interval f2 f4
  have t5 : TestSuite.columnStack ⟨2, 1, fun i _ => if i = 0 then 1 else -1⟩ ⟨2, fun _ => 2⟩ = .ok expectedSet := rfl
  have t6 : TestSuite.columnStack S.A S.b = .ok _ := if_pos (by rw [f2]; exact f3.symm)
  unfold TestSuite.test_solve
  rw [hi, Py.ok_bind, r0, Py.ok_bind]
  simp only [TestSuite.got, Py.ok_bind]
  rw [check_region c0 (by norm_num) (by norm_num) (by norm_num), Py.ok_bind, r1, Py.ok_bind]
  simp only [Py.ok_bind]
  rw [check_region c1 (by norm_num) (by norm_num) (by norm_num), Py.ok_bind, rp, Py.ok_bind]
  simp only [Py.ok_bind]
  rw [check_region c2 (by norm_num) (by norm_num) (by norm_num), Py.ok_bind, s1, Py.ok_bind, t1, Py.ok_bind, t2, Py.ok_bind, t3, Py.ok_bind, hsol, Py.ok_bind]
  simp only [q1, q2, q3, q4, q5, Py.ok_bind, f1, t5, t6, t4]
  rfl

/-- there are routines that meet the specifications -/
example : ∃ L : Lib, LibSpec L := exists_lib

end Verif.Props
