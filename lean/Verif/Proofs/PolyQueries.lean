import Verif.Proofs.PolySweep
import Mathlib.LinearAlgebra.Dimension.OrzechProperty

/- Lemmas that connect the queries of `Polyhedron` with their specification. -/
namespace Verif
open Finset

/-- the linear program without equalities -/
theorem lp_run_none {L : Lib} (hL : LibSpec L) {n : ℕ} {f : Vec ℝ} {A : Mat ℝ} {b : Vec ℝ} (hf : f.n = n)
    (hA : A.nc = n) (hb : b.n = A.nr) (hrows : 0 < A.nr) (tol : ℝ) :
    ∃ ys ss : ℕ → ℝ, ∃ x r lam, x.n = n ∧ (∀ i < A.nr, 0 ≤ ys i) ∧ (∀ i < A.nr, 0 ≤ ss i) ∧
      r = Real.sqrt (lpRes f A b ys ss x.e) ∧
      (∀ y s x' : ℕ → ℝ, (∀ i < A.nr, 0 ≤ y i) → (∀ i < A.nr, 0 ≤ s i) →
        lpRes f A b ys ss x.e ≤ lpRes f A b y s x') ∧
      Pnnls.linear_program L f A b none none tol = .ok (if r < tol then
        ⟨some (Spec.lpCost f x), some x, some (whereGt lam tol), some lam, none⟩ else Sol.none) := by
  obtain ⟨q, AC, bd, ys, x, r, hS, h1, h2, h3, h4, h5, h6, h7, -⟩ := lp_run hL hf (b := b) (A := A)
    (C := none) (d := none) ⟨hA, hb⟩ tol
  have hq : q = 0 := by
    by_contra hq
    obtain ⟨C', hC'⟩ := hS.qpos (Nat.pos_of_ne_zero hq)
    cases hC'
  subst hq
  have hnr : AC.nr = A.nr := hS.nr
  have hnc : AC.nc = A.nc := hS.nc.trans hA.symm
  have hres : ∀ y s x' : ℕ → ℝ, lpRes f AC bd y s x' = lpRes f A b y s x' := by
    intro y s x'
    unfold lpRes
    rw [hnr, hnc]
    congr 1
    · congr 2
      exact Finset.sum_congr rfl fun i hi => by rw [hS.rowb i (mem_range.1 hi)]
    · congr 1
      · refine Finset.sum_congr rfl fun i hi => ?_
        rw [hS.rowb i (mem_range.1 hi)]
        simp only [hS.rowA i (mem_range.1 hi)]
      · refine Finset.sum_congr rfl fun j _ => ?_
        congr 2
        exact Finset.sum_congr rfl fun i hi => by rw [hS.rowA i (mem_range.1 hi)]
  rw [hnr] at h2 h3 h4 h6
  simp only [hres, hnr] at h5 h6
  exact ⟨ys.e, fun i => ys.e (A.nr + i), x, r, mulIneq A ys, h1, h3, h4, h5, h6, h7 (.inl hrows)⟩

/-- an approximate solution of the optimality conditions makes the linear program answer -/
theorem lp_answers {L : Lib} (hL : LibSpec L) {n : ℕ} {f : Vec ℝ} {A : Mat ℝ} {b : Vec ℝ} (hf : f.n = n)
    (hA : A.nc = n) (hb : b.n = A.nr) (hrows : 0 < A.nr) {tol : ℝ} (htol : 0 < tol) {y s x' : ℕ → ℝ} (hy : ∀ i < A.nr, 0 ≤ y i)
    (hs : ∀ i < A.nr, 0 ≤ s i) (hres : lpRes f A b y s x' < tol ^ 2) :
    ∃ x lam, Pnnls.linear_program L f A b none none tol
      = .ok ⟨some (Spec.lpCost f x), some x, some (whereGt lam tol), some lam, none⟩ ∧ x.n = n ∧
      ∀ i < A.nr, ∑ j ∈ range A.nc, A.e i j * x.e j ≤ b.e i + tol := by
  obtain ⟨ys, ss, x, r, lam, h1, h2, h3, h4, h5, h6⟩ := lp_run_none hL hf hA hb hrows tol
  have hr : r < tol := by
    rw [h4, Real.sqrt_lt' htol]
    exact lt_of_le_of_lt (h5 y s x' hy hs) hres
  rw [if_pos hr] at h6
  refine ⟨x, lam, h6, h1, fun i hi => ?_⟩
  obtain ⟨-, k2, -⟩ := lpRes_bounds h4
  have := abs_le.1 (k2 i hi)
  have := h3 i hi
  linarith

theorem vstack3 {A C : Mat ℝ} (h : A.nc = C.nc) : np.vstack [A, C, C.neg] = .ok (A.vapp (C.vapp C.neg)) := by
  have e1 : np.vstack2 C C.neg = .ok (C.vapp C.neg) := if_pos rfl
  have e2 : np.vstack2 A (C.vapp C.neg) = .ok (A.vapp (C.vapp C.neg)) := if_pos h
  simp only [np.vstack, Py.ok_bind, e1, e2]

/-- the rows of `[A; C; -C]` -/
theorem forall_stack3 {A C : Mat ℝ} {b d : Vec ℝ} (hb : b.n = A.nr) (hd : d.n = C.nr) (hAC : A.nc = C.nc)
    {P : ℝ → ℝ → Prop} (x : ℕ → ℝ) :
    (∀ i < (A.vapp (C.vapp C.neg)).nr, P (Spec.rowVal (A.vapp (C.vapp C.neg)) i x)
      ((b.append (d.append d.neg)).e i)) ↔
    (∀ i < A.nr, P (Spec.rowVal A i x) (b.e i)) ∧ (∀ i < C.nr, P (Spec.rowVal C i x) (d.e i)) ∧
      ∀ i < C.nr, P (-Spec.rowVal C i x) (-d.e i) := by
  rw [show (A.vapp (C.vapp C.neg)).nr = A.nr + (C.nr + C.nr) from rfl, forall_lt_add, forall_lt_add]
  refine and_congr (forall₂_congr fun i hi => ?_) (and_congr (forall₂_congr fun i hi => ?_)
    (forall₂_congr fun i hi => ?_))
  · rw [Vec.append_e_lt _ _ (by omega)]
    have : Spec.rowVal (A.vapp (C.vapp C.neg)) i x = Spec.rowVal A i x :=
      Finset.sum_congr rfl fun j _ => by rw [Mat.vapp_e_lt _ _ _ hi]
    rw [this]
  · rw [show A.nr + i = b.n + i by omega, Vec.append_e_add, Vec.append_e_lt _ _ (by omega), hb]
    have : Spec.rowVal (A.vapp (C.vapp C.neg)) (A.nr + i) x = Spec.rowVal C i x := by
      unfold Spec.rowVal
      rw [show (A.vapp (C.vapp C.neg)).nc = C.nc from hAC]
      exact Finset.sum_congr rfl fun j _ => by rw [Mat.vapp_e_add, Mat.vapp_e_lt _ _ _ hi]
    rw [this]
  · rw [show A.nr + (C.nr + i) = b.n + (d.n + i) by omega, Vec.append_e_add, Vec.append_e_add, hb, hd]
    have : Spec.rowVal (A.vapp (C.vapp C.neg)) (A.nr + (C.nr + i)) x = -Spec.rowVal C i x := by
      unfold Spec.rowVal
      rw [show (A.vapp (C.vapp C.neg)).nc = C.nc from hAC, ← Finset.sum_neg_distrib]
      exact Finset.sum_congr rfl fun j _ => by rw [Mat.vapp_e_add, Mat.vapp_e_add]; simp
    rw [this]
    rfl

theorem mem_stack3 {A C : Mat ℝ} {b d : Vec ℝ} (hb : b.n = A.nr) (hd : d.n = C.nr) (hAC : A.nc = C.nc)
    (x : ℕ → ℝ) : (∀ i < (A.vapp (C.vapp C.neg)).nr, Spec.rowVal (A.vapp (C.vapp C.neg)) i x
      ≤ (b.append (d.append d.neg)).e i) ↔ Spec.InPoly A b C d x := by
  rw [forall_stack3 hb hd hAC (P := (· ≤ ·))]
  refine and_congr_right fun _ => ⟨fun h i hi => le_antisymm (h.1 i hi) ?_, fun h => ⟨fun i hi => (h i hi).le,
    fun i hi => (neg_le_neg_iff.2 (h i hi).ge)⟩⟩
  have := h.2 i hi
  unfold Spec.rowVal at this
  linarith

namespace Poly

/-- the loop of `is_included_in` -/
theorem includedLoop_ok {L : Lib} (hL : LibSpec L) {A1 A2 : Mat ℝ} {b1 b2 : Vec ℝ} (hb : b1.n = A1.nr)
    (hc : A2.nc = A1.nc) (hrows : 0 < A1.nr) {tol : ℝ} {x0 : ℕ → ℝ} (hx0 : ∀ i < A1.nr, Spec.rowVal A1 i x0 ≤ b1.e i)
    (is : List ℕ) (hM : ∀ i ∈ is, ∃ M, ∀ x, (∀ i < A1.nr, Spec.rowVal A1 i x ≤ b1.e i) → Spec.rowVal A2 i x ≤ M) :
    ∃ r, includedLoop L A1 b1 A2 b2 tol is = .ok r ∧
      (r = true ↔ ∀ i ∈ is, ∀ x, (∀ i < A1.nr, Spec.rowVal A1 i x ≤ b1.e i) →
        Spec.rowVal A2 i x ≤ b2.e i + tol) := by
  induction is with
  | nil => exact ⟨true, rfl, by simp⟩
  | cons i is ih =>
    obtain ⟨r, h1, h2⟩ := ih fun j hj => hM j (by simp [hj])
    obtain ⟨M, hM⟩ := hM i (by simp)
    obtain ⟨s, x, k1, k2, k3, k4, k5, k6⟩ := lpMax hL (n := A1.nc) (A := A1) (b := b1) (g := A2.row i) rfl hb hc hrows
      (x0 := x0) hx0 (M := M) (fun x hx => by
        have := hM x hx; unfold Spec.rowVal at this; rw [hc] at this; exact this)
    have hv : ∀ x : ℕ → ℝ, Spec.rowVal A2 i x = ∑ j ∈ range A1.nc, (A2.row i).e j * x j := by
      intro x; unfold Spec.rowVal; rw [hc]; rfl
    have hrun : includedLoop L A1 b1 A2 b2 tol (i :: is)
        = if Spec.rowVal A2 i x.e - b2.e i > tol then .ok false else includedLoop L A1 b1 A2 b2 tol is := by
      conv_lhs => unfold includedLoop
      rw [k1, Py.ok_bind]
      unfold negMin
      rw [k4]
      simp only [neg_neg, Py.ok_bind, hv]
      rfl
    rw [hrun]
    by_cases hgt : Spec.rowVal A2 i x.e - b2.e i > tol
    · refine ⟨false, if_pos hgt, ?_⟩
      simp only [Bool.false_eq_true, false_iff]
      intro h
      have := h i (by simp) x.e k5
      linarith
    · refine ⟨r, by rw [if_neg hgt, h1], ?_⟩
      rw [h2, List.forall_mem_cons]
      refine (and_iff_right fun x' hx' => ?_).symm
      have := k6 x' hx'
      rw [← hv, ← hv] at this
      linarith

theorem is_included_in_eq (L : Lib) {n : ℕ} {p q : Poly} (hp : p.Inv n) (hq : q.Inv n) (tol : ℝ) :
    is_included_in L p q tol = includedLoop L (p.A.vapp (p.C.vapp p.C.neg)) (p.b.append (p.d.append p.d.neg))
      (q.A.vapp (q.C.vapp q.C.neg)) (q.b.append (q.d.append q.d.neg)) tol
      (List.range (q.A.vapp (q.C.vapp q.C.neg)).nr) := by
  obtain ⟨s1, s2, s3, s4⟩ := hp
  obtain ⟨t1, t2, t3, t4⟩ := hq
  unfold is_included_in
  rw [vstack3 (s1.trans s3.symm), vstack3 (t1.trans t3.symm)]
  have e1 : np.concatenate [p.b, p.d, p.d.neg] = .ok (p.b.append (p.d.append p.d.neg)) := rfl
  have e2 : np.concatenate [q.b, q.d, q.d.neg] = .ok (q.b.append (q.d.append q.d.neg)) := rfl
  rw [e1, e2]
  have e3 : init (p.A.vapp (p.C.vapp p.C.neg)) (.d1 (p.b.append (p.d.append p.d.neg)))
      = .ok (fresh (p.A.vapp (p.C.vapp p.C.neg)) (p.b.append (p.d.append p.d.neg)) (Mat.zeros 0 p.A.nc)
        (Vec.zeros 0)) := by
    unfold init
    have : sameNumberRows (p.A.vapp (p.C.vapp p.C.neg)) (.d1 (p.b.append (p.d.append p.d.neg))) = .ok () := by
      refine if_neg (not_not.2 ?_)
      show p.A.nr + (p.C.nr + p.C.nr) = p.b.n + (p.d.n + p.d.n)
      omega
    rw [this]
    rfl
  simp only [Py.ok_bind, e3]
  rfl

theorem eqRank_iff {n : ℕ} {p : Poly} : EqRank n p ↔ Spec.EqIndep n p.C := by
  unfold EqRank Spec.EqIndep
  rw [and_comm]
  refine and_congr_right fun _ => ?_
  rw [Matrix.rank_eq_finrank_span_row]
  have h1 := linearIndependent_iff_card_eq_finrank_span (R := ℝ) (b := (p.C.asM p.C.nr n).row)
  rw [Fintype.card_fin, eq_comm, Set.finrank] at h1
  rw [← h1, Fintype.linearIndependent_iff]
  constructor
  · intro h w hw i hi
    refine h (fun i => w i) ?_ ⟨i, hi⟩
    funext j
    rw [Finset.sum_apply]
    have := hw j j.2
    rw [Finset.sum_range] at this
    exact this
  · intro h g hg i
    have := h (fun i => if h : i < p.C.nr then g ⟨i, h⟩ else 0) (fun j hj => ?_) i i.2
    · simpa using this
    · rw [Finset.sum_range]
      have := congrFun hg ⟨j, hj⟩
      rw [Finset.sum_apply] at this
      simpa using this

theorem computeEmpty_false_iff {L : Lib} (hL : LibSpec L) {n : ℕ} {p : Poly} (hp : p.Inv n) (hrows : p.HasRows) :
    computeEmpty L p.A p.b p.C p.d = .ok false ↔ Spec.NearPoint n p.A p.b p.C p.d := by
  obtain ⟨e, he, hiff⟩ := computeEmpty_iff hL hp hrows
  rw [he]
  unfold Spec.NearPoint
  cases e
  · simp only [true_iff]
    by_contra hno
    push Not at hno
    exact Bool.false_ne_true (hiff.2 hno)
  · simp only [Except.ok.injEq, Bool.true_eq_false, false_iff]
    push Not
    exact hiff.1 rfl

theorem computeEmpty_true_iff {L : Lib} (hL : LibSpec L) {n : ℕ} {p : Poly} (hp : p.Inv n) (hrows : p.HasRows) :
    computeEmpty L p.A p.b p.C p.d = .ok true ↔ ¬ Spec.NearPoint n p.A p.b p.C p.d := by
  rw [← computeEmpty_false_iff hL hp hrows]
  obtain ⟨e, he, -⟩ := computeEmpty_iff hL hp hrows
  rw [he]
  cases e <;> simp

theorem reduced_error {L : Lib} (hL : LibSpec L) {n : ℕ} {p : Poly} (hp : p.Inv n) (h0 : p.C.nr ≠ 0)
    (h : ¬ EqRank n p) : reduced L p = .error .valueError := by
  unfold reduced
  rw [if_pos h0, removeEqualities_error hL hp (by omega) h]
  rfl

theorem minimal_facets_empty {L : Lib} (hL : LibSpec L) {n : ℕ} {p : Poly} (hp : p.Inv n) (hc : EmptyOk L p)
    (he : computeEmpty L p.A p.b p.C p.d = .ok true) (tol : ℝ) :
    minimal_facets L tol p = (.ok none, { p with _empty := some true }) := by
  obtain ⟨e, he', hrun⟩ := empty_run hL hp (hasRows_of_ok hL hp he) hc
  rw [he] at he'
  cases he'
  unfold minimal_facets
  rw [PyM.bind_ok hrun]
  rfl

theorem minimal_facets_error {L : Lib} (hL : LibSpec L) {n : ℕ} {p : Poly} (hp : p.Inv n) (hc : EmptyOk L p)
    (he : computeEmpty L p.A p.b p.C p.d = .ok false) (h0 : p.C.nr ≠ 0) (h : ¬ EqRank n p) (tol : ℝ) :
    minimal_facets L tol p = (.error .valueError, { p with _empty := some false }) := by
  obtain ⟨e, he', hrun⟩ := empty_run hL hp (hasRows_of_ok hL hp he) hc
  rw [he] at he'
  cases he'
  unfold minimal_facets
  rw [PyM.bind_ok hrun]
  simp only [Bool.false_eq_true, if_false]
  rw [PyM.bind_ok (PyM.get_apply _)]
  have e1 : reduced L { p with _empty := some false } = .error .valueError := reduced_error hL (p := p) hp h0 h
  simp only [PyM.bind_apply, PyM.lift_apply, e1]

end Poly
end Verif
