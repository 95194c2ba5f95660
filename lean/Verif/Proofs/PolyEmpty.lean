import Verif.Proofs.Polyhedron
import Verif.Proofs.LPMain
import Verif.Proofs.QPMain

/- Lemmas on `empty` and on the linear programs solved by the methods of `Polyhedron`. -/
namespace Verif
open Finset

theorem symPosDef_eye (n : ℕ) : Spec.SymPosDef n (Mat.eye n) := by
  have hq : ∀ x : ℕ → ℝ, ∑ i ∈ range n, ∑ j ∈ range n, x i * (Mat.eye n : Mat ℝ).e i j * x j
      = ∑ i ∈ range n, x i ^ 2 := by
    intro x
    refine Finset.sum_congr rfl fun i hi => ?_
    rw [Finset.sum_eq_single i]
    · simp [Mat.eye_e]; ring
    · intro j _ hj; simp [Mat.eye_e, Ne.symm hj]
    · intro h; exact absurd hi h
  refine ⟨rfl, rfl, fun i _ j _ => ?_, fun x hx => ?_⟩
  · simp only [Mat.eye_e, eq_comm]
  · rw [hq]
    obtain ⟨i, hi, hxi⟩ := hx
    exact Finset.sum_pos' (fun _ _ => sq_nonneg _) ⟨i, mem_range.2 hi, by positivity⟩

theorem eye_quad (n : ℕ) (x : ℕ → ℝ) :
    ∑ i ∈ range n, ∑ j ∈ range n, x i * (Mat.eye n : Mat ℝ).e i j * x j = ∑ i ∈ range n, x i ^ 2 := by
  refine Finset.sum_congr rfl fun i hi => ?_
  rw [Finset.sum_eq_single i]
  · simp [Mat.eye_e]; ring
  · intro j _ hj; simp [Mat.eye_e, Ne.symm hj]
  · intro h; exact absurd hi h

namespace Poly

theorem feasible_iff (A : Mat ℝ) (b : Vec ℝ) (C : Mat ℝ) (d : Vec ℝ) (x : Vec ℝ) :
    Spec.Feasible A b (some C) (some d) x ↔ Spec.InPoly A b C d x.e := Iff.rfl

/-- what the quadratic program of `empty` tells -/
theorem computeEmpty_iff {L : Lib} (hL : LibSpec L) {n : ℕ} {A : Mat ℝ} {b : Vec ℝ} {C : Mat ℝ} {d : Vec ℝ}
    (hs : Spec.PolyShape n A b C d) (hrows : 0 < A.nr ∨ 0 < C.nr) : ∃ e, computeEmpty L A b C d = .ok e ∧
      (e = true ↔ ∀ x, Spec.InPoly A b C d x → 1 / (1e-7 : ℝ) ^ 2 - 1 ≤ ∑ i ∈ range n, x i ^ 2) := by
  obtain ⟨s1, s2, s3, s4⟩ := hs
  have hc : Spec.ConstrShape n A b (some C) (some d) := ⟨s1, s2, s3, s4⟩
  have hk : Spec.HasConstr A (some C) := hrows.imp id fun h => ⟨C, rfl, h⟩
  have hH := symPosDef_eye n
  have hiff := qp_none_iff (tol := 1e-7) (f := Vec.zeros n) (x0 := fun _ => 0) hL hH rfl hc hk (by norm_num)
    (by simp)
  have hcost : ∀ x : Vec ℝ, Spec.qpCost (Mat.eye n) (Vec.zeros n) x = 1 / 2 * ∑ i ∈ range n, x.e i ^ 2 := by
    intro x
    unfold Spec.qpCost
    rw [show (Mat.eye n : Mat ℝ).nr = n from rfl, show (Mat.eye n : Mat ℝ).nc = n from rfl, eye_quad]
    simp
  have key : Pnnls.quadratic_program L (Mat.eye n) (Vec.zeros n) A b (some C) (some d) 1e-7 = .ok Sol.none ↔
      ∀ x, Spec.InPoly A b C d x → 1 / (1e-7 : ℝ) ^ 2 - 1 ≤ ∑ i ∈ range n, x i ^ 2 := by
    rw [hiff]
    simp only [sub_zero, eye_quad]
    constructor
    · rintro (h | ⟨x, hx, hd⟩) y hy
      · exact absurd ((feasible_iff _ _ _ _ ⟨n, y⟩).2 hy) (h ⟨n, y⟩)
      · have := hx.2 ⟨n, y⟩ hy
        rw [hcost, hcost] at this
        simp only at this
        linarith
    · intro h
      by_cases hf : ∃ x, Spec.Feasible A b (some C) (some d) x
      · obtain ⟨x, hx⟩ := qp_exists_opt (f := Vec.zeros n) hL hH rfl hc hf
        exact .inr ⟨x, hx, h x.e hx.1⟩
      · exact .inl fun x hx => hf ⟨x, hx⟩
  unfold computeEmpty qpDefault
  rw [s1]
  rcases qp_answer (tol := 1e-7) (f := Vec.zeros n) hL hH rfl hc hk (by norm_num) with h | ⟨x, lam, mu, h, -⟩
  · refine ⟨true, by rw [h]; rfl, ?_⟩
    rw [← key, h]
    simp
  · refine ⟨false, by rw [h]; rfl, ?_⟩
    rw [← key, h]
    simp [Sol.none]

/-- without constraints, `empty` of a new polyhedron raises -/
theorem computeEmpty_none {L : Lib} (hL : LibSpec L) {n : ℕ} {A : Mat ℝ} {b : Vec ℝ} {C : Mat ℝ} {d : Vec ℝ}
    (hs : Spec.PolyShape n A b C d) (hA : A.nr = 0) (hC : C.nr = 0) : computeEmpty L A b C d = .error .runtimeError := by
  obtain ⟨s1, s2, s3, s4⟩ := hs
  have hc : Spec.ConstrShape n A b (some C) (some d) := ⟨s1, s2, s3, s4⟩
  obtain ⟨_, _, _, _, _, _, _, -, -, -, -, -, -, -, -, h⟩ := qp_run (tol := 1e-7) (f := Vec.zeros n) hL (symPosDef_eye n) rfl hc
  unfold computeEmpty qpDefault
  rw [s1, h (by rintro (h | ⟨C', h, h'⟩); · omega
                cases h; omega)]
  rfl

/-- the polyhedron is given by at least one inequality or equality -/
def HasRows (p : Poly) : Prop := 0 < p.A.nr ∨ 0 < p.C.nr

/-- the answers in the cache are the ones a new polyhedron would give -/
def EmptyOk (L : Lib) (p : Poly) : Prop := ∀ e, p._empty = some e → computeEmpty L p.A p.b p.C p.d = .ok e

theorem hasRows_of_ok {L : Lib} (hL : LibSpec L) {n : ℕ} {p : Poly} (hp : p.Inv n) {e : Bool}
    (he : computeEmpty L p.A p.b p.C p.d = .ok e) : p.HasRows := by
  by_contra h
  unfold HasRows at h
  rw [computeEmpty_none hL hp (by omega) (by omega)] at he
  cases he

/-- the property `empty` -/
theorem empty_run {L : Lib} (hL : LibSpec L) {n : ℕ} {p : Poly} (hp : p.Inv n) (hrows : p.HasRows) (hc : EmptyOk L p) :
    ∃ e, computeEmpty L p.A p.b p.C p.d = .ok e ∧ empty L p = (.ok e, { p with _empty := some e }) := by
  obtain ⟨e, he, -⟩ := computeEmpty_iff hL hp hrows
  refine ⟨e, he, ?_⟩
  unfold empty
  rw [PyM.bind_ok (PyM.get_apply p)]
  cases h : p._empty with
  | some e' =>
    have := hc e' h
    rw [he] at this
    cases this
    show (Except.ok e, p) = _
    rw [← h]
  | none =>
    simp only
    rw [PyM.bind_ok (show PyM.lift (computeEmpty L p.A p.b p.C p.d) p = (.ok e, p) by rw [PyM.lift_apply, he]),
      PyM.bind_ok (PyM.modify_apply _ _)]
    rfl

/-- `empty` of a polyhedron without constraints -/
theorem empty_no_rows {L : Lib} (hL : LibSpec L) {n : ℕ} {p : Poly} (hp : p.Inv n) (hrows : ¬ p.HasRows) (hc : EmptyOk L p) :
    empty L p = (.error .runtimeError, p) := by
  have he : computeEmpty L p.A p.b p.C p.d = .error .runtimeError := by
    unfold HasRows at hrows
    exact computeEmpty_none hL hp (by omega) (by omega)
  unfold empty
  rw [PyM.bind_ok (PyM.get_apply p)]
  cases h : p._empty with
  | some e =>
    have := hc e h
    rw [he] at this
    cases this
  | none =>
    simp only [PyM.bind_apply, PyM.lift_apply, he]

/-- the linear program `max g x s.t. A x ≤ b` with a feasible set on which `g x` is bounded -/
theorem lpMax {L : Lib} (hL : LibSpec L) {n : ℕ} {A : Mat ℝ} {b g : Vec ℝ} (hA : A.nc = n) (hb : b.n = A.nr)
    (hg : g.n = n) (hrows : 0 < A.nr) {x0 : ℕ → ℝ} (hx0 : ∀ i < A.nr, ∑ j ∈ range n, A.e i j * x0 j ≤ b.e i) {M : ℝ}
    (hM : ∀ x : ℕ → ℝ, (∀ i < A.nr, ∑ j ∈ range n, A.e i j * x j ≤ b.e i) →
      ∑ j ∈ range n, g.e j * x j ≤ M) :
    ∃ (s : Sol) (x : Vec ℝ), lpDefault L g.neg A b = .ok s ∧ s.argmin = some x ∧ x.n = n ∧
      s.min = some (-∑ j ∈ range n, g.e j * x.e j) ∧
      (∀ i < A.nr, ∑ j ∈ range n, A.e i j * x.e j ≤ b.e i) ∧
      ∀ x' : ℕ → ℝ, (∀ i < A.nr, ∑ j ∈ range n, A.e i j * x' j ≤ b.e i) →
        ∑ j ∈ range n, g.e j * x' j ≤ ∑ j ∈ range n, g.e j * x.e j := by
  subst hA
  have hs : Spec.ConstrShape A.nc A b none none := ⟨rfl, hb⟩
  have hcost : ∀ x : Vec ℝ, Spec.lpCost g.neg x = -∑ j ∈ range A.nc, g.e j * x.e j := by
    intro x
    simp only [Spec.lpCost, Vec.neg_n, hg, Vec.neg_e, neg_mul, Finset.sum_neg_distrib]
  have hopt : ∃ x, Spec.IsLpOpt g.neg A b none none x := by
    by_contra hno
    rcases no_lpOpt (f := g.neg) hg hs hno with h | h
    · exact h ⟨A.nc, x0⟩ ⟨hx0, trivial⟩
    · obtain ⟨x, ⟨hx, -⟩, hlt⟩ := h (-M)
      rw [hcost] at hlt
      have := hM x.e hx
      linarith
  obtain ⟨x, lam, mu, h1, h2, h3, -⟩ := lp_finds (f := g.neg) hL hg hs (.inl hrows) (tol := 1e-7) (by norm_num) hopt
  refine ⟨_, x, h1, rfl, h2, by rw [hcost], h3.1.1, fun x' hx' => ?_⟩
  have := h3.2 ⟨A.nc, x'⟩ ⟨hx', trivial⟩
  rw [hcost, hcost] at this
  linarith

end Poly
end Verif
