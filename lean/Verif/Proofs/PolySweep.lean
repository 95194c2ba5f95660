import Verif.Proofs.PolyReduce

/- Lemmas on `minimal_facets` and `remove_redundant_inequalities`. -/
namespace Verif
open Finset

theorem forall_getD {P : ℕ → Prop} {l : List ℕ} : (∀ a < l.length, P (l.getD a 0)) ↔ ∀ i ∈ l, P i := by
  constructor
  · intro h i hi
    obtain ⟨a, ha, rfl⟩ := List.getElem_of_mem hi
    have := h a ha
    rwa [List.getD_eq_getElem?_getD, List.getElem?_eq_getElem ha] at this
  · intro h a ha
    rw [List.getD_eq_getElem?_getD, List.getElem?_eq_getElem ha]
    exact h _ (List.getElem_mem ha)

/-- `E[i] y` -/
def rowAt (E : Mat ℝ) (i : ℕ) (y : ℕ → ℝ) : ℝ := ∑ j ∈ range E.nc, E.e i j * y j

theorem rowAt_comb (E : Mat ℝ) (i : ℕ) (t : ℝ) (y z : ℕ → ℝ) :
    rowAt E i (fun j => (1 - t) * y j + t * z j) = (1 - t) * rowAt E i y + t * rowAt E i z := by
  unfold rowAt
  rw [Finset.mul_sum, Finset.mul_sum, ← Finset.sum_add_distrib]
  exact Finset.sum_congr rfl fun j _ => by ring

namespace Poly

theorem relaxedMax_ok {L : Lib} (hL : LibSpec L) {E : Mat ℝ} {f : Vec ℝ} (hf : f.n = E.nr) {mf : List ℕ}
    (hmf : ∀ i ∈ mf, i < E.nr) {i : ℕ} (hi : i ∈ mf) {y0 : ℕ → ℝ} (hy0 : ∀ j ∈ mf, rowAt E j y0 ≤ f.e j) :
    ∃ y : ℕ → ℝ, relaxedMax L E f i mf = .ok (rowAt E i y) ∧
      (∀ j ∈ mf, j ≠ i → rowAt E j y ≤ f.e j) ∧
      ∀ y', (∀ j ∈ mf, j ≠ i → rowAt E j y' ≤ f.e j) → rowAt E i y' ≤ f.e i + 1 →
        rowAt E i y' ≤ rowAt E i y := by
  have e1 : np.rows E mf = .ok (E.rows mf) := if_pos hmf
  have e2 : np.addV f (oneHot f.n i) = .ok (f.add (oneHot f.n i)) := if_pos rfl
  have e3 : np.take (f.add (oneHot f.n i)) mf = .ok ((f.add (oneHot f.n i)).take mf) :=
    if_pos fun j hj => by rw [Vec.add_n, hf]; exact hmf j hj
  have hiff : ∀ x : ℕ → ℝ, (∀ a < (E.rows mf).nr, ∑ j ∈ range E.nc, (E.rows mf).e a j * x j
      ≤ ((f.add (oneHot f.n i)).take mf).e a) ↔
      (∀ j ∈ mf, j ≠ i → rowAt E j x ≤ f.e j) ∧ rowAt E i x ≤ f.e i + 1 := by
    intro x
    have h1 : (∀ a < (E.rows mf).nr, ∑ j ∈ range E.nc, (E.rows mf).e a j * x j
      ≤ ((f.add (oneHot f.n i)).take mf).e a) ↔ ∀ j ∈ mf, rowAt E j x ≤ f.e j + if j = i then 1 else 0 :=
      forall_getD (P := fun j => rowAt E j x ≤ f.e j + if j = i then 1 else 0)
    rw [h1]
    constructor
    · intro h
      refine ⟨fun j hj hji => ?_, ?_⟩
      · have := h j hj; rwa [if_neg hji, add_zero] at this
      · have := h i hi; rwa [if_pos rfl] at this
    · rintro ⟨h2, h3⟩ j hj
      by_cases hji : j = i
      · rw [if_pos hji, hji]; exact h3
      · rw [if_neg hji, add_zero]; exact h2 j hj hji
  obtain ⟨s, x, h1, h2, h3, h4, h5, h6⟩ := lpMax hL (n := E.nc) (A := E.rows mf)
    (b := (f.add (oneHot f.n i)).take mf) (g := E.row i) rfl rfl rfl (by rw [Mat.rows_nr]; exact List.length_pos_of_mem hi) (x0 := y0)
    ((hiff y0).2 ⟨fun j hj _ => hy0 j hj, by linarith [hy0 i hi]⟩) (M := f.e i + 1)
    (fun x hx => ((hiff x).1 hx).2)
  refine ⟨x.e, ?_, ((hiff _).1 h5).1, fun y' h7 h8 => h6 y' ((hiff y').2 ⟨h7, h8⟩)⟩
  unfold relaxedMax
  rw [e1, Py.ok_bind, e2, Py.ok_bind, e3, Py.ok_bind, h1, Py.ok_bind]
  unfold negMin
  rw [h4]
  simp only [neg_neg]
  rfl

/-- the loop over the facets -/
theorem sweep_ok {L : Lib} (hL : LibSpec L) {E : Mat ℝ} {f : Vec ℝ} (hf : f.n = E.nr) {tol : ℝ} (htol : tol ≤ 1)
    {y0 : ℕ → ℝ} (hy0 : ∀ j < E.nr, rowAt E j y0 ≤ f.e j) (is mf : List ℕ) (his : is.Pairwise (· < ·))
    (hsub : ∀ i ∈ is, i ∈ mf) (hmf : ∀ i ∈ mf, i < E.nr) (hnd : mf.Nodup) :
    ∃ r, sweep L E f tol is mf = .ok r ∧ r.Sublist mf ∧ (∀ i ∈ mf, i ∉ is → i ∈ r) ∧
      (∀ i ∈ is, i ∈ r → ∃ y, (∀ j ∈ r, j ≠ i → rowAt E j y ≤ f.e j) ∧
        (∀ j ∈ is, i < j → rowAt E j y ≤ f.e j) ∧ f.e i + tol ≤ rowAt E i y) ∧
      (∀ i ∈ is, i ∉ r → ∀ y, (∀ j ∈ r, rowAt E j y ≤ f.e j) → (∀ j ∈ is, i < j → rowAt E j y ≤ f.e j) →
        rowAt E i y < f.e i + tol) := by
  induction is generalizing mf with
  | nil => exact ⟨mf, rfl, List.Sublist.refl _, fun i hi _ => hi, by simp, by simp⟩
  | cons i is ih =>
    obtain ⟨hlt, hp⟩ := List.pairwise_cons.1 his
    have hi : i ∈ mf := hsub i (by simp)
    have hnot : i ∉ is := fun h => lt_irrefl _ (hlt i h)
    obtain ⟨y, h1, h2, h3⟩ := relaxedMax_ok hL hf hmf hi (fun j hj => hy0 j (hmf j hj))
    by_cases hred : rowAt E i y - f.e i < tol
    · obtain ⟨r, k1, k2, k3, k4, k5⟩ := ih (mf.erase i) hp
        (fun j hj => (hnd.mem_erase_iff).2 ⟨fun h => hnot (h ▸ hj), hsub j (by simp [hj])⟩)
        (fun j hj => hmf j (List.mem_of_mem_erase hj)) (hnd.erase i)
      have hir : i ∉ r := fun h => ((hnd.mem_erase_iff).1 (k2.subset h)).1 rfl
      refine ⟨r, ?_, k2.trans List.erase_sublist, fun j hj hji => ?_, fun j hj hjr => ?_, fun j hj hjr y' h4 h5 => ?_⟩
      · unfold sweep; rw [h1, Py.ok_bind, if_pos hred, k1]
      · simp only [List.mem_cons, not_or] at hji
        exact k3 j ((hnd.mem_erase_iff).2 ⟨hji.1, hj⟩) hji.2
      · rcases List.mem_cons.1 hj with rfl | hj'
        · exact absurd hjr hir
        · obtain ⟨y, l1, l2, l3⟩ := k4 j hj' hjr
          refine ⟨y, l1, fun k hk hjk => ?_, l3⟩
          rcases List.mem_cons.1 hk with rfl | hk'
          · exact absurd (hlt j hj') (by omega)
          · exact l2 k hk' hjk
      · rcases List.mem_cons.1 hj with rfl | hj'
        · -- the inequality that has just been removed
          have hall : ∀ k ∈ mf, k ≠ j → rowAt E k y' ≤ f.e k := by
            intro k hk hkj
            by_cases hkr : k ∈ r
            · exact h4 k hkr
            · by_cases hkis : k ∈ is
              · exact h5 k (by simp [hkis]) (hlt k hkis)
              · exact absurd (k3 k ((hnd.mem_erase_iff).2 ⟨hkj, hk⟩) hkis) hkr
          by_contra hcon
          push Not at hcon
          by_cases hle : rowAt E j y' ≤ f.e j + 1
          · have := h3 y' hall hle
            linarith
          · push Not at hle
            have hj0 := hy0 j (hmf j hi)
            set D := rowAt E j y' - rowAt E j y0 with hD
            have hDpos : 0 < D := by rw [hD]; linarith
            set t := (f.e j + 1 - rowAt E j y0) / D with ht
            have ht0 : 0 ≤ t := div_nonneg (by linarith) hDpos.le
            have ht1 : t ≤ 1 := by rw [ht, div_le_one hDpos, hD]; linarith
            have htD : t * D = f.e j + 1 - rowAt E j y0 := div_mul_cancel₀ _ hDpos.ne'
            have hval : rowAt E j (fun l => (1 - t) * y0 l + t * y' l) = f.e j + 1 := by
              rw [rowAt_comb]
              have : t * (rowAt E j y' - rowAt E j y0) = f.e j + 1 - rowAt E j y0 := htD
              linarith
            have := h3 (fun l => (1 - t) * y0 l + t * y' l) (fun k hk hkj => by
              rw [rowAt_comb]
              nlinarith [hall k hk hkj, hy0 k (hmf k hk)]) hval.le
            linarith
        · exact k5 j hj' hjr y' h4 (fun k hk => h5 k (by simp [hk]))
    · obtain ⟨r, k1, k2, k3, k4, k5⟩ := ih mf hp (fun j hj => hsub j (by simp [hj])) hmf hnd
      have hir : i ∈ r := k3 i hi hnot
      refine ⟨r, ?_, k2, fun j hj hji => ?_, fun j hj hjr => ?_, fun j hj hjr y' h4 h5 => ?_⟩
      · unfold sweep; rw [h1, Py.ok_bind, if_neg hred, k1]
      · simp only [List.mem_cons, not_or] at hji
        exact k3 j hj hji.2
      · rcases List.mem_cons.1 hj with rfl | hj'
        · exact ⟨y, fun k hk => h2 k (k2.subset hk), fun k hk hjk => h2 k (hsub k hk) (by omega),
            by push Not at hred; linarith⟩
        · obtain ⟨y, l1, l2, l3⟩ := k4 j hj' hjr
          refine ⟨y, l1, fun k hk hjk => ?_, l3⟩
          rcases List.mem_cons.1 hk with rfl | hk'
          · exact absurd (hlt j hj') (by omega)
          · exact l2 k hk' hjk
      · rcases List.mem_cons.1 hj with rfl | hj'
        · exact absurd hir hjr
        · exact k5 j hj' hjr y' h4 (fun k hk => h5 k (by simp [hk]))

/-- the inequalities without the equalities -/
theorem reduced_ok {L : Lib} (hL : LibSpec L) {n : ℕ} {p : Poly} (hp : p.Inv n)
    (h : p.C.nr = 0 ∨ EqRank n p) :
    ∃ E f, ∃ φ : (ℕ → ℝ) → ℕ → ℝ, reduced L p = .ok (E, f) ∧ E.nr = p.A.nr ∧ f.n = p.A.nr ∧
      (∀ y, ∀ i < p.C.nr, ∑ j ∈ range n, p.C.e i j * φ y j = p.d.e i) ∧
      (∀ x : ℕ → ℝ, (∀ i < p.C.nr, ∑ j ∈ range n, p.C.e i j * x j = p.d.e i) →
        ∃ y, ∀ j < n, x j = φ y j) ∧
      (∀ y, ∀ i < p.A.nr, rowAt E i y - f.e i = ∑ j ∈ range n, p.A.e i j * φ y j - p.b.e i) := by
  by_cases h0 : p.C.nr = 0
  · refine ⟨p.A, p.b, id, ?_, rfl, hp.2.1, ?_, fun x _ => ⟨x, fun _ _ => rfl⟩, fun y i _ => ?_⟩
    · unfold reduced; rw [if_neg (by simp [h0])]; rfl
    · intro y i hi; omega
    · unfold rowAt; rw [hp.1]; rfl
  · obtain ⟨E, f, N, R, x0, h1, -, h2⟩ := removeEqualities_ok hL hp (by omega) (h.resolve_left h0)
    refine ⟨E, f, affine x0 N, ?_, h2.Enr, h2.fn, h2.eqs, h2.surj, fun y i hi => ?_⟩
    · unfold reduced; rw [if_pos h0, h1]; rfl
    · unfold rowAt; rw [h2.Enc]; exact h2.res y i hi

/-- `A[i] x` -/
def ineqVal (p : Poly) (i : ℕ) (x : ℕ → ℝ) : ℝ := ∑ j ∈ range p.A.nc, p.A.e i j * x j
/-- `C x = d` -/
def EqsHold (p : Poly) (x : ℕ → ℝ) : Prop := ∀ i < p.C.nr, ∑ j ∈ range p.C.nc, p.C.e i j * x j = p.d.e i

theorem minimal_facets_ok {L : Lib} (hL : LibSpec L) {n : ℕ} {p : Poly} (hp : p.Inv n) (hc : EmptyOk L p)
    (he : computeEmpty L p.A p.b p.C p.d = .ok false) (h : p.C.nr = 0 ∨ EqRank n p) {tol : ℝ} (htol : tol ≤ 1) :
    ∃ r, minimal_facets L tol p = (.ok (some r), { p with _empty := some false }) ∧
      r.Sublist (List.range p.A.nr) ∧
      (∀ i ∈ r, ∃ x, p.EqsHold x ∧ (∀ j ∈ r, j ≠ i → p.ineqVal j x ≤ p.b.e j) ∧
        (∀ j < p.A.nr, i < j → p.ineqVal j x ≤ p.b.e j) ∧ p.b.e i + tol ≤ p.ineqVal i x) ∧
      (∀ i < p.A.nr, i ∉ r → ∀ x, p.EqsHold x → (∀ j ∈ r, p.ineqVal j x ≤ p.b.e j) →
        (∀ j < p.A.nr, i < j → p.ineqVal j x ≤ p.b.e j) → p.ineqVal i x < p.b.e i + tol) := by
  obtain ⟨s1, s2, s3, s4⟩ := id hp
  obtain ⟨e, he', hrun⟩ := empty_run hL hp (hasRows_of_ok hL hp he) hc
  rw [he] at he'
  cases he'
  -- there is a point
  obtain ⟨e, he', hiff⟩ := computeEmpty_iff hL hp (hasRows_of_ok hL hp he)
  rw [he] at he'
  cases he'
  have hne : ∃ x, p.Mem x := by
    by_contra hno
    have := hiff.2 fun x hx => absurd ⟨x, hx⟩ hno
    cases this
  obtain ⟨x0, hx0⟩ := hne
  obtain ⟨E, f, φ, h1, h2, h3, h4, h5, h6⟩ := reduced_ok hL hp h
  have hval : ∀ y, ∀ i < p.A.nr, p.ineqVal i (φ y) - p.b.e i = rowAt E i y - f.e i := by
    intro y i hi; rw [h6 y i hi]; unfold ineqVal; rw [s1]
  have hle : ∀ y, ∀ i < p.A.nr, p.ineqVal i (φ y) ≤ p.b.e i ↔ rowAt E i y ≤ f.e i := by
    intro y i hi; have := hval y i hi; constructor <;> intro h <;> linarith
  have hEq : ∀ y, p.EqsHold (φ y) := by
    intro y i hi; rw [s3]; exact h4 y i hi
  have hsurj : ∀ x, p.EqsHold x → ∃ y, ∀ i, p.ineqVal i x = p.ineqVal i (φ y) := by
    intro x hx
    obtain ⟨y, hy⟩ := h5 x (by intro i hi; have := hx i hi; rwa [s3] at this)
    refine ⟨y, fun i => Finset.sum_congr rfl fun j hj => ?_⟩
    rw [hy j (by rw [← s1]; exact mem_range.1 hj)]
  obtain ⟨y0, hy0⟩ := hsurj x0 hx0.2
  obtain ⟨r, k1, k2, -, k4, k5⟩ := sweep_ok hL (h3.trans h2.symm) htol (y0 := y0)
    (fun j hj => (hle y0 j (h2 ▸ hj)).1 (by rw [← hy0]; exact hx0.1 j (h2 ▸ hj)))
    (List.range E.nr) (List.range E.nr) List.pairwise_lt_range (fun i hi => hi) (fun i hi => by simpa using hi)
    List.nodup_range
  have hr : ∀ i ∈ r, i < p.A.nr := fun i hi => by
    have := k2.subset hi; rw [h2] at this; simpa using this
  refine ⟨r, ?_, by rw [← h2]; exact k2, fun i hi => ?_, fun i hi hir x hx h7 h8 => ?_⟩
  · unfold minimal_facets
    rw [PyM.bind_ok hrun]
    simp only [Bool.false_eq_true, if_false]
    rw [PyM.bind_ok (PyM.get_apply _)]
    have e1 : reduced L { p with _empty := some false } = .ok (E, f) := h1
    simp only [PyM.bind_apply, PyM.lift_apply, e1, k1]
    rfl
  · obtain ⟨y, h7, h9, h8⟩ := k4 i (k2.subset hi) hi
    refine ⟨φ y, hEq y, fun j hj hji => (hle y j (hr j hj)).2 (h7 j hj hji),
      fun j hj hij => (hle y j hj).2 (h9 j (by rw [h2]; simpa using hj) hij), ?_⟩
    have := hval y i (hr i hi)
    linarith
  · obtain ⟨y, hy⟩ := hsurj x hx
    rw [hy]
    have := k5 i (by rw [h2]; simpa using hi) hir y
      (fun j hj => (hle y j (hr j hj)).1 (by rw [← hy]; exact h7 j hj))
      (fun j hj hij => by
        have hj' : j < p.A.nr := by rw [h2] at hj; simpa using hj
        exact (hle y j hj').1 (by rw [← hy]; exact h8 j hj' hij))
    have := hval y i hi
    linarith

/-- the polyhedron left by `remove_redundant_inequalities` -/
theorem remove_redundant_ok {L : Lib} {p q : Poly} {r : List ℕ} (hq : minimal_facets L 1e-7 p = (.ok (some r), q))
    (hA : q.A = p.A) (hb : q.b = p.b) (hs : p.b.n = p.A.nr) (hr : ∀ i ∈ r, i < p.A.nr) :
    remove_redundant_inequalities L p = (.ok (), { q with A := p.A.rows r, b := p.b.take r }) := by
  unfold remove_redundant_inequalities
  rw [PyM.bind_ok hq]
  simp only
  rw [PyM.bind_ok (PyM.get_apply _)]
  have e1 : np.rows q.A r = .ok (p.A.rows r) := by rw [hA]; exact if_pos hr
  have e2 : np.take q.b r = .ok (p.b.take r) := by rw [hb]; exact if_pos fun i hi => by rw [hs]; exact hr i hi
  simp only [PyM.bind_apply, PyM.lift_apply, e1, e2, PyM.modify_apply]

end Poly
end Verif
