import Verif.Props.MpQPAllMany
import Verif.Props.MpQPLoop

/- The hypotheses of C122 (several parameters) on a program with two parameters and two regions. -/
namespace Verif.Props
open Finset Verif.MpQP

/-- min u² / 2 - u x₀ s.t. u ≤ 0 and |x₀| ≤ 1, |x₁| ≤ 1 -/
noncomputable def foldQP : Spec.ParamQP :=
  ⟨⟨1, 1, fun _ _ => 1⟩, ⟨1, 2, fun _ j => if j = 0 then -1 else 0⟩, ⟨2, 2, fun _ _ => 0⟩, ⟨1, fun _ => 0⟩, ⟨2, fun _ => 0⟩, 0,
   ⟨5, 1, fun i _ => if i = 0 then 1 else 0⟩,
   ⟨5, 2, fun i j => if j = 0 then (if i = 1 then 1 else if i = 3 then -1 else 0) else (if i = 2 then 1 else if i = 4 then -1 else 0)⟩,
   ⟨5, fun i => if i = 0 then 0 else 1⟩⟩

theorem foldQP_shape : foldQP.Shape 1 2 := by
  refine ⟨⟨rfl, rfl, fun _ _ _ _ => rfl, ?_⟩, rfl, rfl, rfl, rfl, rfl, rfl, rfl, rfl, rfl, rfl⟩
  rintro x ⟨i, hi, hx⟩
  have : i = 0 := by omega
  subst this
  have := mul_self_pos.2 hx
  simp [foldQP]
  nlinarith

/-- the five inequalities of a region of `foldQP`: s x₀ ≤ 0, |x₀| ≤ 1, |x₁| ≤ 1 -/
def foldRow (s : ℝ) (i : ℕ) : ℝ × ℝ × ℝ :=
  match i with
  | 0 => (s, 0, 0)
  | 1 => (1, 0, 1)
  | 2 => (0, 1, 1)
  | 3 => (-1, 0, 1)
  | _ => (0, -1, 1)

structure IsFold (p : Poly) (s : ℝ) : Prop where
  inv : p.Inv 2
  eqs : p.C.nr = 0
  nr : p.A.nr = 5
  row : ∀ i < 5, p.A.e i 0 = (foldRow s i).1 ∧ p.A.e i 1 = (foldRow s i).2.1 ∧ p.b.e i = (foldRow s i).2.2

theorem IsFold.val {p : Poly} {s : ℝ} (h : IsFold p s) {i : ℕ} (hi : i < 5) (x : ℕ → ℝ) :
    Spec.rowVal p.A i x = (foldRow s i).1 * x 0 + (foldRow s i).2.1 * x 1 := by
  obtain ⟨h1, h2, -⟩ := h.row i hi
  unfold Spec.rowVal
  rw [h.inv.1, Finset.sum_range_succ, Finset.sum_range_one, h1, h2]

theorem IsFold.mem {p : Poly} {s : ℝ} (h : IsFold p s) (x : ℕ → ℝ) :
    p.Mem x ↔ ∀ i < 5, (foldRow s i).1 * x 0 + (foldRow s i).2.1 * x 1 ≤ (foldRow s i).2.2 := by
  constructor
  · intro hx i hi
    have : Spec.rowVal p.A i x ≤ p.b.e i := hx.1 i (by rw [h.nr]; exact hi)
    rwa [h.val hi, (h.row i hi).2.2] at this
  · intro hx
    refine ⟨fun i hi => ?_, fun i hi => by have := h.eqs; omega⟩
    rw [h.nr] at hi
    show Spec.rowVal p.A i x ≤ p.b.e i
    rw [h.val hi, (h.row i hi).2.2]
    exact hx i hi

theorem IsFold.mem_iff {p : Poly} {s : ℝ} (h : IsFold p s) (x : ℕ → ℝ) :
    p.Mem x ↔ s * x 0 ≤ 0 ∧ x 0 ≤ 1 ∧ x 1 ≤ 1 ∧ -x 0 ≤ 1 ∧ -x 1 ≤ 1 := by
  rw [h.mem]
  constructor
  · intro h
    have h0 := h 0 (by norm_num)
    have h1 := h 1 (by norm_num)
    have h2 := h 2 (by norm_num)
    have h3 := h 3 (by norm_num)
    have h4 := h 4 (by norm_num)
    simp [foldRow] at h0 h1 h2 h3 h4
    exact ⟨h0, h1, h2, by linarith, by linarith⟩
  · rintro ⟨h0, h1, h2, h3, h4⟩ i hi
    interval_cases i <;> simp [foldRow] <;> linarith

theorem foldRow_except {s a b : ℝ} {i : ℕ} (h0 : i ≠ 0 → s * a ≤ 0) (h1 : i ≠ 1 → a ≤ 1) (h2 : i ≠ 2 → b ≤ 1) (h3 : i ≠ 3 → -a ≤ 1) (h4 : i ≠ 4 → -b ≤ 1) :
    ∀ j < 5, j ≠ i → (foldRow s j).1 * a + (foldRow s j).2.1 * b ≤ (foldRow s j).2.2 := by
  intro j hj hji
  interval_cases j
  · have := h0 hji.symm
    simp [foldRow]; linarith
  · have := h1 hji.symm
    simp [foldRow]; linarith
  · have := h2 hji.symm
    simp [foldRow]; linarith
  · have := h3 hji.symm
    simp [foldRow]; linarith
  · have := h4 hji.symm
    simp [foldRow]; linarith

/-- the row that is implied by the first one -/
def foldSkip (s : ℝ) (i : ℕ) : Prop := (i = 1 ∧ s = 1) ∨ (i = 3 ∧ s = -1)

/-- the facets found -/
theorem IsFold.facets {L : Lib} (hL : LibSpec L) {p : Poly} {s : ℝ} (h : IsFold p s) (hs : s = 1 ∨ s = -1) (hE : p.EmptyOk L) {mf : List ℕ}
    (hmf : (Poly.minimal_facets L 1e-7 p).1 = .ok (some mf)) : (∀ i ∈ mf, i < 5) ∧ ∀ i < 5, i ∈ mf ↔ ¬ foldSkip s i := by
  obtain ⟨r, r1, -, r2, r3, r4, r5⟩ := redundancy_run hL h.inv (.inl (by have := h.nr; omega)) hE
    ⟨fun _ => 0, (h.mem_iff _).2 (by norm_num), by norm_num⟩ (Or.inl h.eqs) (tol := 1e-7) (by norm_num)
  rw [r1] at hmf
  obtain rfl : r = mf := Option.some.inj (Except.ok.inj hmf)
  rw [h.nr] at r3 r5
  -- the rows that are not implied by the other ones
  have hin : ∀ i < 5, ∀ a b : ℝ, (∀ j < 5, j ≠ i → (foldRow s j).1 * a + (foldRow s j).2.1 * b ≤ (foldRow s j).2.2) →
      (foldRow s i).2.2 + 1 ≤ (foldRow s i).1 * a + (foldRow s i).2.1 * b → i ∈ r := by
    intro i hi a b h1 h2
    by_contra hn
    have := r5 i hi hn (fun j => if j = 0 then a else b) (fun j hj => by have := h.eqs; omega) (fun j hj => by
      rw [h.val (r3 j hj), (h.row j (r3 j hj)).2.2]
      exact h1 j (r3 j hj) fun e => hn (e ▸ hj)) (fun j hj hij => by
      rw [h.val hj, (h.row j hj).2.2]
      exact h1 j hj (by omega))
    rw [h.val hi, (h.row i hi).2.2] at this
    simp only [if_true, one_ne_zero, if_false] at this
    norm_num at this
    linarith
  have h0 : 0 ∈ r := by
    rcases hs with rfl | rfl
    · exact hin 0 (by norm_num) 1 0 (foldRow_except (by simp) (by norm_num) (by norm_num) (by norm_num) (by norm_num)) (by simp [foldRow])
    · exact hin 0 (by norm_num) (-1) 0 (foldRow_except (by simp) (by norm_num) (by norm_num) (by norm_num) (by norm_num)) (by simp [foldRow])
  refine ⟨r3, fun i hi => ⟨fun hir hsk => ?_, fun hsk => ?_⟩⟩
  · obtain ⟨x, -, x1, -, x2⟩ := r4 i hir
    have h1 := x1 0 h0 (by rcases hsk with ⟨rfl, -⟩ | ⟨rfl, -⟩ <;> norm_num)
    rw [h.val (by norm_num), (h.row 0 (by norm_num)).2.2] at h1
    rw [h.val hi, (h.row i hi).2.2] at x2
    rcases hsk with ⟨rfl, rfl⟩ | ⟨rfl, rfl⟩ <;> simp [foldRow] at h1 x2 <;> norm_num at x2 <;> linarith
  · interval_cases i
    · exact h0
    · rcases hs with rfl | rfl
      · exact absurd (.inl ⟨rfl, rfl⟩) hsk
      · exact hin 1 (by norm_num) 2 0 (foldRow_except (by norm_num) (by norm_num) (by norm_num) (by norm_num) (by norm_num)) (by simp [foldRow]; norm_num)
    · exact hin 2 (by norm_num) 0 2 (foldRow_except (by norm_num) (by norm_num) (by norm_num) (by norm_num) (by norm_num)) (by simp [foldRow]; norm_num)
    · rcases hs with rfl | rfl
      · exact hin 3 (by norm_num) (-2) 0 (foldRow_except (by norm_num) (by norm_num) (by norm_num) (by norm_num) (by norm_num)) (by simp [foldRow]; norm_num)
      · exact absurd (.inr ⟨rfl, rfl⟩) hsk
    · exact hin 4 (by norm_num) 0 (-2) (foldRow_except (by norm_num) (by norm_num) (by norm_num) (by norm_num) (by norm_num)) (by simp [foldRow]; norm_num)

/-- a point of each facet -/
theorem IsFold.tight {p : Poly} {s : ℝ} (h : IsFold p s) (hs : s = 1 ∨ s = -1) {i : ℕ} (hi : i < 5) (hsk : ¬ foldSkip s i) :
    ∃ f, p.Mem f ∧ Spec.rowVal p.A i f = p.b.e i := by
  have key : ∀ a b : ℝ, (s * a ≤ 0 ∧ a ≤ 1 ∧ b ≤ 1 ∧ -a ≤ 1 ∧ -b ≤ 1) → (foldRow s i).1 * a + (foldRow s i).2.1 * b = (foldRow s i).2.2 →
      ∃ f, p.Mem f ∧ Spec.rowVal p.A i f = p.b.e i := by
    intro a b h1 h2
    refine ⟨fun j => if j = 0 then a else b, (h.mem_iff _).2 (by simpa using h1), ?_⟩
    rw [h.val hi, (h.row i hi).2.2]
    simpa using h2
  interval_cases i
  · exact key 0 0 (by norm_num) (by simp [foldRow])
  · rcases hs with rfl | rfl
    · exact absurd (.inl ⟨rfl, rfl⟩) hsk
    · exact key 1 0 (by norm_num) (by simp [foldRow])
  · exact key 0 1 (by norm_num) (by simp [foldRow])
  · rcases hs with rfl | rfl
    · exact key (-1) 0 (by norm_num) (by simp [foldRow])
    · exact absurd (.inr ⟨rfl, rfl⟩) hsk
  · exact key 0 (-1) (by norm_num) (by simp [foldRow])

theorem IsFold.bounded {p : Poly} {s : ℝ} (h : IsFold p s) {w : ℕ → ℝ} (hw : p.Mem w) : ∀ j < 2, |w j| ≤ 1 := by
  obtain ⟨-, h1, h2, h3, h4⟩ := (h.mem_iff w).1 hw
  intro j hj
  rw [abs_le]
  interval_cases j
  · exact ⟨by linarith, h1⟩
  · exact ⟨by linarith, h2⟩

/-- the points beyond the facets: outside the box, or across the facet where the regions meet -/
theorem IsFold.beyond {L : Lib} (hL : LibSpec L) {cr : CritReg} {s : ℝ} (h : IsFold cr.polyhedron s) (hs : s = 1 ∨ s = -1) {i : ℕ} (hi : i < 5)
    (hsk : ¬ foldSkip s i) {ya : Vec ℝ × List ℕ} (hb : beyondFacet L 1e-5 cr i = .ok ya) :
    (i = 0 ∧ ya.1.e 0 = s * 1e-5 ∧ ya.1.e 1 = 0) ∨ (0 < i ∧ (foldRow s i).1 * ya.1.e 0 + (foldRow s i).2.1 * ya.1.e 1 = 1 + 1e-5) := by
  obtain ⟨f, f1, f2⟩ := h.tight hs hi hsk
  have hz : Spec.rowVal cr.polyhedron.A i (fun j => f j + cr.polyhedron.A.e i j) ≠ cr.polyhedron.b.e i := by
    intro e
    rw [← f2, h.val hi, h.val hi, (h.row i hi).1, (h.row i hi).2.1] at e
    interval_cases i <;> simp [foldRow] at e
    rcases hs with rfl | rfl <;> norm_num at e
  obtain ⟨c, r, hr, h1, h2, h3⟩ := beyondFacet_center hL h.inv h.eqs (by norm_num) (M := 1) (fun w hw _ => h.bounded hw) f1 f2 hz hb
  have c0 := h2 (fun _ => 0) (by simp [Spec.rowVal]) (by simpa using hr)
  simp only [add_zero] at c0
  obtain ⟨c1, c2⟩ := c0
  have e0 := h1 0 (by norm_num)
  have e1 := h1 1 (by norm_num)
  obtain ⟨w1, w2, w3⟩ := h.row i hi
  rw [h.val hi, w3] at c2
  rw [w1] at e0
  rw [w2] at e1
  by_cases hi0 : i = 0
  · subst hi0
    left
    simp only [foldRow, zero_mul, add_zero, mul_zero] at c2 e0 e1
    have hs0 : s ≠ 0 := by rcases hs with rfl | rfl <;> norm_num
    have hc0 : c 0 = 0 := (mul_eq_zero.1 c2).resolve_left hs0
    -- the unit ball about the origin is in the facet, thus also one about the center
    have hr1 : 1 ≤ r := by
      refine h3 (fun _ => 0) 1 (by norm_num) fun v v1 v2 => ?_
      rw [h.val hi] at v1
      simp only [foldRow, zero_mul, add_zero] at v1
      have v0 : v 0 = 0 := (mul_eq_zero.1 v1).resolve_left hs0
      rw [Real.sqrt_le_one, Finset.sum_range_succ, Finset.sum_range_one, v0] at v2
      have hv := abs_le.1 (abs_le_one_iff_mul_self_le_one.2 (show v 1 * v 1 ≤ 1 by nlinarith))
      refine ⟨(h.mem_iff _).2 ?_, ?_⟩
      · simp only [v0, zero_add]
        refine ⟨by simp, by norm_num, hv.2, by norm_num, by linarith⟩
      · rw [h.val hi, w3]; simp [foldRow, v0]
    have hc1 : ∀ t : ℝ, t ^ 2 ≤ 1 → c 1 + t ≤ 1 ∧ -(c 1 + t) ≤ 1 := by
      intro t ht
      obtain ⟨m1, -⟩ := h2 (fun j => if j = 0 then 0 else t) (by rw [h.val hi]; simp [foldRow]) (by
        refine le_trans ?_ hr1
        rw [Real.sqrt_le_one, Finset.sum_range_succ, Finset.sum_range_one]
        simpa using ht)
      obtain ⟨-, -, m3, -, m4⟩ := (h.mem_iff _).1 m1
      simp only [one_ne_zero, if_false] at m3 m4
      exact ⟨m3, m4⟩
    have t1 := (hc1 1 (by norm_num)).1
    have t2 := (hc1 (-1) (by norm_num)).2
    refine ⟨rfl, by rw [e0, hc0]; ring, by rw [e1]; linarith⟩
  · right
    refine ⟨Nat.pos_of_ne_zero hi0, ?_⟩
    rw [e0, e1]
    interval_cases i
    · exact absurd rfl hi0
    all_goals simp [foldRow] at c2 ⊢; linarith

/-! ### the program -/

/-- a row of a region that is already normalised -/
theorem fCr_row {nu : ℕ} {q : MpQP} (hs : q.data.Shape nu 2) {a : List ℕ} {k : ℕ} (hk : k < (q.fPoly a).A.nr) {r : ℝ × ℝ × ℝ}
    (h : ∀ x : ℕ → ℝ, ∑ j ∈ range 2, (q.fAcr a).e k j * x j - (q.fBcr a).e k = r.1 * x 0 + r.2.1 * x 1 - r.2.2) (hr : r.1 ^ 2 + r.2.1 ^ 2 = 1) :
    (q.fCr a).polyhedron.A.e k 0 = r.1 ∧ (q.fCr a).polyhedron.A.e k 1 = r.2.1 ∧ (q.fCr a).polyhedron.b.e k = r.2.2 := by
  have e0 := h fun _ => 0
  have e1 := h fun j => if j = 0 then 1 else 0
  have e2 := h fun j => if j = 0 then 0 else 1
  rw [Finset.sum_range_succ, Finset.sum_range_one] at e0 e1 e2
  simp only [mul_zero, mul_one, if_true, one_ne_zero, if_false, add_zero, zero_add, zero_sub, neg_inj] at e0 e1 e2
  have a0 : (q.fPoly a).A.e k 0 = r.1 := by show (q.fAcr a).e k 0 = _; linarith
  have a1 : (q.fPoly a).A.e k 1 = r.2.1 := by show (q.fAcr a).e k 1 = _; linarith
  have b0 : (q.fPoly a).b.e k = r.2.2 := e0
  have hn : vnorm ((q.fPoly a).A.row k) = 1 := by
    have h1 : vnorm ((q.fPoly a).A.row k) ^ 2 = 1 := by
      rw [vnorm_sq]
      show ∑ j ∈ range (q.fPoly a).A.nc, (q.fPoly a).A.e k j ^ 2 = 1
      rw [(fPoly_inv (a := a) hs).1, Finset.sum_range_succ, Finset.sum_range_one, a0, a1, hr]
    have h2 : 0 ≤ vnorm ((q.fPoly a).A.row k) := Real.sqrt_nonneg _
    nlinarith
  obtain ⟨n1, n2⟩ := normalize_row (p := q.fPoly a) hk
  have hgt : vnorm ((q.fPoly a).A.row k) > 1e-7 := by rw [hn]; norm_num
  simp only [if_pos hgt] at n1 n2
  simp only [hn, div_one] at n1 n2
  exact ⟨(n1 0).trans a0, (n1 1).trans a1, n2.trans b0⟩

theorem fold_lhs {q : MpQP} (hd : q.data = foldQP) (u x : ℕ → ℝ) : q.data.lhs 1 2 0 u x = u 0 ∧ q.data.lhs 1 2 1 u x = x 0 ∧ q.data.lhs 1 2 2 u x = x 1 ∧
    q.data.lhs 1 2 3 u x = -x 0 ∧ q.data.lhs 1 2 4 u x = -x 1 := by
  rw [hd]
  refine ⟨?_, ?_, ?_, ?_, ?_⟩ <;> simp [Spec.ParamQP.lhs, foldQP, Finset.sum_range_succ]

theorem fold_lag {q : MpQP} (hd : q.data = foldQP) (u x p : ℕ → ℝ) : q.data.lagrangian 1 2 u x p 0 = u 0 - x 0 + p 0 := by
  rw [hd]
  simp [Spec.ParamQP.lagrangian, foldQP, Finset.sum_range_succ]
  ring

theorem fold_b {q : MpQP} (hd : q.data = foldQP) (i : ℕ) : q.b.e i = if i = 0 then 0 else 1 := congrArg (fun P : Spec.ParamQP => P.b.e i) hd

theorem fold_feas {q : MpQP} (hd : q.data = foldQP) (x : ℕ → ℝ) : (∃ u, q.data.Feas 1 2 u x) ↔ x 0 ≤ 1 ∧ x 1 ≤ 1 ∧ -x 0 ≤ 1 ∧ -x 1 ≤ 1 := by
  have hA : q.data.Au.nr = 5 := congrArg (fun P : Spec.ParamQP => P.Au.nr) hd
  have hb : ∀ i, q.data.b.e i = if i = 0 then 0 else 1 := fold_b hd
  constructor
  · rintro ⟨u, hu⟩
    obtain ⟨-, l1, l2, l3, l4⟩ := fold_lhs hd u x
    have h1 := hu 1 (by omega)
    have h2 := hu 2 (by omega)
    have h3 := hu 3 (by omega)
    have h4 := hu 4 (by omega)
    rw [hb] at h1 h2 h3 h4
    rw [l1] at h1; rw [l2] at h2; rw [l3] at h3; rw [l4] at h4
    exact ⟨h1, h2, h3, h4⟩
  · rintro ⟨h1, h2, h3, h4⟩
    refine ⟨fun _ => 0, fun i hi => ?_⟩
    rw [hA] at hi
    obtain ⟨l0, l1, l2, l3, l4⟩ := fold_lhs hd (fun _ => 0) x
    rw [hb]
    interval_cases i
    · rw [l0]; simp
    · rw [l1]; exact h1
    · rw [l2]; exact h2
    · rw [l3]; exact h3
    · rw [l4]; exact h4

theorem fold_licq {q : MpQP} (hd : q.data = foldQP) (a : List ℕ) : q.data.Licq 1 a ↔ a = [] ∨ a = [0] := by
  have hAu : ∀ i j, q.data.Au.e i j = if i = 0 then 1 else 0 := fun i j => congrArg (fun P : Spec.ParamQP => P.Au.e i j) hd
  constructor
  · intro hl
    have h0 : ∀ i ∈ a, i = 0 := by
      intro i hi
      by_contra hne
      obtain ⟨k, hk, rfl⟩ := List.getElem_of_mem hi
      have := hl (fun j => if j = k then 1 else 0) (fun j hj => by
        rw [Finset.sum_eq_single_of_mem k (mem_range.2 hk) fun l _ hl => by simp [hl]]
        rw [hAu, List.getD_eq_getElem _ _ hk, if_neg hne, mul_zero]) k hk
      simp at this
    have hnd := licq_nodup hl
    match a, hnd, h0 with
    | [], _, _ => exact .inl rfl
    | [i], _, h => rw [h i (by simp)]; exact .inr rfl
    | i :: j :: l, hn, h =>
      have e1 := h i (by simp)
      have e2 := h j (by simp)
      subst e1 e2
      simp at hn
  · rintro (rfl | rfl)
    · exact fun w _ k hk => by simp at hk
    · intro w hw k hk
      have := hw 0 (by norm_num)
      simp at hk
      subst hk
      simpa [hAu] using this

/-- the two regions -/
theorem fold_regions {q : MpQP} (hm : q.Made) (hd : q.data = foldQP) : IsFold (q.fCr []).polyhedron 1 ∧ IsFold (q.fCr [0]).polyhedron (-1) := by
  have hs : q.data.Shape 1 2 := by rw [hd]; exact foldQP_shape
  have hA : q.Au.nr = 5 := congrArg (fun P : Spec.ParamQP => P.Au.nr) hd
  have hAx : q.Ax.nr = 5 := congrArg (fun P : Spec.ParamQP => P.Ax.nr) hd
  have hl0 : q.data.Licq 1 [] := (fold_licq hd _).2 (.inl rfl)
  have hl1 : q.data.Licq 1 [0] := (fold_licq hd _).2 (.inr rfl)
  have hi0 : q.inactive [] = [0, 1, 2, 3, 4] := by simp [inactive, hAx]; rfl
  have hi1 : q.inactive [0] = [1, 2, 3, 4] := by simp [inactive, hAx]; decide
  have hb := fold_b hd
  have hk0 : ∀ x : ℕ → ℝ, q.fu' [] 2 x 0 = x 0 := by
    intro x
    obtain ⟨k1, -⟩ := (fCr_kkt hm hs (a := []) (by simp) hl0 x).2.2 (fun _ => x 0) (fun _ => 0) (by
      intro j hj
      obtain rfl : j = 0 := by omega
      rw [fold_lag hd]; ring) (by simp) (by simp)
    exact (k1 0 (by norm_num)).symm
  have hk1 : ∀ x : ℕ → ℝ, q.fp' [0] 2 x 0 = x 0 := by
    intro x
    obtain ⟨-, k1⟩ := (fCr_kkt hm hs (a := [0]) (by simp; omega) hl1 x).2.2 (fun _ => 0) (fun i => if i = 0 then x 0 else 0) (by
      intro j hj
      obtain rfl : j = 0 := by omega
      rw [fold_lag hd]; simp) (by
      intro i hi
      rw [List.mem_singleton] at hi
      subst hi
      rw [(fold_lhs hd _ _).1, hb]; simp) (by
      intro i _ hi
      rw [List.mem_singleton] at hi
      simp [hi])
    simpa using (k1 0 (by omega)).symm
  constructor
  · have hp : (q.fPoly []).A.nr = 5 := by
      show ([] : List ℕ).length + (q.inactive []).length = 5
      rw [hi0]; rfl
    refine ⟨fCr_inv hs, (C07 2 _ (fPoly_inv (a := []) hs) 1e-7 (by norm_num)).2.2.1, (C07 2 _ (fPoly_inv (a := []) hs) 1e-7 (by norm_num)).2.1.trans hp, fun i hi => ?_⟩
    refine fCr_row hs (by omega) (fun x => ?_) (by interval_cases i <;> simp [foldRow])
    have := fAcr_con (a := []) hm hs x i
    simp only [List.length_nil, zero_add] at this
    rw [this, hi0, hb]
    obtain ⟨l0, l1, l2, l3, l4⟩ := fold_lhs hd (q.fu' [] 2 x) x
    interval_cases i <;> simp [foldRow, l0, l1, l2, l3, l4, hk0]
  · have hp : (q.fPoly [0]).A.nr = 5 := by
      show ([0] : List ℕ).length + (q.inactive [0]).length = 5
      rw [hi1]; rfl
    refine ⟨fCr_inv hs, (C07 2 _ (fPoly_inv (a := [0]) hs) 1e-7 (by norm_num)).2.2.1, (C07 2 _ (fPoly_inv (a := [0]) hs) 1e-7 (by norm_num)).2.1.trans hp, fun i hi => ?_⟩
    refine fCr_row hs (by omega) (fun x => ?_) (by interval_cases i <;> simp [foldRow])
    cases i with
    | zero =>
      rw [fAcr_mul hs hl1 x (by simp)]
      simp [foldRow, hk1]
    | succ i =>
      have := fAcr_con (a := [0]) hm hs x i
      rw [add_comm i 1]
      simp only [List.length_singleton] at this
      rw [this, hi1, hb]
      obtain ⟨l0, l1, l2, l3, l4⟩ := fold_lhs hd (q.fu' [0] 2 x) x
      have : i < 4 := by omega
      interval_cases i <;> simp [foldRow, l0, l1, l2, l3, l4]

theorem fold_region {q : MpQP} (hm : q.Made) (hd : q.data = foldQP) {a : List ℕ} {cr : CritReg} (h : q.explicit_solve_given_active_set a = .ok (some cr)) :
    ∃ s, (s = 1 ∨ s = -1) ∧ IsFold cr.polyhedron s ∧ cr = q.fCr a := by
  have hs : q.data.Shape 1 2 := by rw [hd]; exact foldQP_shape
  obtain ⟨-, hla, rfl⟩ := explicit_cases hm hs h
  obtain ⟨h0, h1⟩ := fold_regions hm hd
  rcases (fold_licq hd a).1 hla with rfl | rfl
  · exact ⟨1, .inl rfl, h0, rfl⟩
  · exact ⟨-1, .inr rfl, h1, rfl⟩

theorem IsFold.same {p p' : Poly} {s : ℝ} (h : IsFold p s) (e1 : p'.A = p.A) (e2 : p'.b = p.b) (e3 : p'.C = p.C) (e4 : p'.d = p.d) : IsFold p' s := by
  obtain ⟨⟨h1, h2, h3, h4⟩, h5, h6, h7⟩ := h
  exact ⟨⟨by rw [e1]; exact h1, by rw [e1, e2]; exact h2, by rw [e3]; exact h3, by rw [e3, e4]; exact h4⟩, by rw [e3]; exact h5, by rw [e1]; exact h6,
    by rw [e1, e2]; exact h7⟩

/-- the points of the search are the origin and the points beyond the facets -/
theorem fold_reached {L : Lib} (hL : LibSpec L) {q : MpQP} (hm : q.Made) (hd : q.data = foldQP) {xa : Vec ℝ × List ℕ} (h : Reached L q 1e-5 xa) :
    ((xa.1.e 0 = 0 ∨ xa.1.e 0 = 1e-5 ∨ xa.1.e 0 = -1e-5) ∧ xa.1.e 1 = 0) ∨ ∃ i, 0 < i ∧ i < 5 ∧ (foldRow 1 i).1 * xa.1.e 0 + (foldRow 1 i).2.1 * xa.1.e 1 = 1 + 1e-5 := by
  have hs : q.data.Shape 1 2 := by rw [hd]; exact foldQP_shape
  cases h with
  | start => exact .inl ⟨.inl rfl, rfl⟩
  | next h1 h2 h3 h4 =>
    obtain ⟨a, hrun⟩ := point_from h2
    obtain ⟨s, hs1, hp, rfl⟩ := fold_region hm hd hrun
    obtain ⟨P, ⟨e1, e2, e3, e4⟩, rfl⟩ := neighbours_like h3
    obtain ⟨mf, k1, k2⟩ := neighbours_mem h3
    obtain ⟨l1, l2⟩ := mapM_ok_iff k2
    obtain ⟨n, hn, rfl⟩ := List.getElem_of_mem h4
    have hb := l2 n (l1 ▸ hn) hn
    obtain ⟨m1, m2⟩ := hp.facets hL hs1 (fun e he => by cases he) k1
    have hmem : mf[n]'(l1 ▸ hn) ∈ mf := List.getElem_mem _
    have hlt := m1 _ hmem
    rcases IsFold.beyond hL (cr := { q.fCr a with polyhedron := P }) (hp.same e1 e2 e3 e4) hs1 hlt ((m2 _ hlt).1 hmem) hb with ⟨-, b1, b2⟩ | ⟨b1, b2⟩
    · left
      refine ⟨?_, b2⟩
      rcases hs1 with rfl | rfl
      · right; left; rw [b1]; ring
      · right; right; rw [b1]; ring
    · right
      refine ⟨_, b1, hlt, ?_⟩
      generalize mf[n]'(l1 ▸ hn) = i at b1 b2 hlt
      interval_cases i <;> simpa [foldRow] using b2

/-- the solution at the points of the search that are in the box -/
theorem fold_answer {L : Lib} (hL : LibSpec L) {q : MpQP} (hm : q.Made) (hd : q.data = foldQP) {xa : Vec ℝ × List ℕ} (h : Reached L q 1e-5 xa)
    (hf : ∃ u, q.data.Feas 1 2 u xa.1.e) :
    ∃ (s : Sol) (lam : Vec ℝ) (act : List ℕ), q.solve L xa.1 = .ok s ∧ s.multiplier_inequality = some lam ∧ s.active_set = some act ∧
      q.data.Licq 1 act ∧ ∀ i < q.Au.nr, 1e-7 < lam.e i ∨ lam.e i = 0 := by
  have hs : q.data.Shape 1 2 := by rw [hd]; exact foldQP_shape
  have hA : q.Au.nr = 5 := congrArg (fun P : Spec.ParamQP => P.Au.nr) hd
  have hH : q.Huu.e 0 0 = 1 := congrArg (fun P : Spec.ParamQP => P.Huu.e 0 0) hd
  have hb : ∀ i, q.data.b.e i = if i = 0 then 0 else 1 := fold_b hd
  obtain ⟨x0, x1⟩ : (xa.1.e 0 = 0 ∨ xa.1.e 0 = 1e-5 ∨ xa.1.e 0 = -1e-5) ∧ xa.1.e 1 = 0 := by
    refine (fold_reached hL hm hd h).resolve_right ?_
    rintro ⟨i, i1, i2, hi⟩
    obtain ⟨f1, f2, f3, f4⟩ := (fold_feas hd _).1 hf
    interval_cases i <;> simp [foldRow] at hi <;> norm_num at hi <;> linarith
  have hkkt : q.data.KKT 1 2 (fun _ => min (xa.1.e 0) 0) (fun i => if i = 0 then xa.1.e 0 - min (xa.1.e 0) 0 else 0) xa.1.e := by
    refine ⟨fun i hi => ?_, fun j hj => ?_, fun i hi => ?_, fun i hi => ?_⟩
    · obtain ⟨f1, f2, f3, f4⟩ := (fold_feas hd _).1 hf
      have hi : i < 5 := by rw [← hA]; exact hi
      obtain ⟨l0, l1, l2, l3, l4⟩ := fold_lhs hd (fun _ => min (xa.1.e 0) 0) xa.1.e
      rw [hb]
      interval_cases i
      · rw [l0]; exact min_le_right _ _
      · rw [l1]; exact f1
      · rw [l2]; exact f2
      · rw [l3]; exact f3
      · rw [l4]; exact f4
    · obtain rfl : j = 0 := by omega
      rw [fold_lag hd]; simp
    · by_cases h0 : i = 0
      · simp [h0]
      · simp [h0]
    · by_cases h0 : i = 0
      · subst h0
        rw [(fold_lhs hd _ _).1, hb]
        rcases min_choice (xa.1.e 0) 0 with h | h <;> simp [h]
      · simp [h0]
  obtain ⟨o1, o2⟩ := opt_of_kkt hs hkkt
  obtain ⟨s, h1, h2, h3, -⟩ := (C45_partial L hL 1 2 q hs xa.1 (reached_size hm hs h) (fun _ => xa.1.e 0) (by
    intro j hj
    obtain rfl : j = 0 := by omega
    rw [fold_lag hd]; ring)).1 (by omega)
  cases hmin : s.min with
  | none =>
    exfalso
    rcases h3.1 hmin with h4 | ⟨v, h4, h5⟩
    · exact h4 _ o1.1
    · rw [Finset.sum_range_one, Finset.sum_range_one, hH, o2 v h4.1 (h4.2 _ o1.1) 0 (by norm_num)] at h5
      rcases x0 with h | h | h <;> rw [h] at h5 <;> norm_num at h5
  | some m =>
    obtain ⟨u, lam, -, -, -, -, -, h4, -, hk, act, h5, h6, h7⟩ := h2 m hmin
    obtain ⟨l0, l1, l2, l3, l4⟩ := fold_lhs hd u.e xa.1.e
    have hlam : ∀ i < q.Au.nr, i ≠ 0 → lam.e i = 0 := by
      intro i hi h0
      have hc := hk.compl i hi
      rw [hb, if_neg h0] at hc
      have hi : i < 5 := by rw [← hA]; exact hi
      refine (mul_eq_zero.1 hc).resolve_right fun e => ?_
      interval_cases i
      · exact h0 rfl
      · rw [l1] at e; rcases x0 with h | h | h <;> rw [h] at e <;> norm_num at e
      · rw [l2, x1] at e; norm_num at e
      · rw [l3] at e; rcases x0 with h | h | h <;> rw [h] at e <;> norm_num at e
      · rw [l4, x1] at e; norm_num at e
    refine ⟨s, lam, act, h1, h4, h5, (fold_licq hd act).2 ?_, fun i hi => ?_⟩
    · have hnd : act.Nodup := h6.imp fun h => h.ne
      have h0 : ∀ i ∈ act, i = 0 := fun i hi => by
        obtain ⟨h8, h9⟩ := (h7 i).1 hi
        by_contra hne
        rw [hlam i h8 hne] at h9
        norm_num at h9
      match act, hnd, h0 with
      | [], _, _ => exact .inl rfl
      | [i], _, h => rw [h i (by simp)]; exact .inr rfl
      | i :: j :: l, hn, h =>
        have e1 := h i (by simp)
        have e2 := h j (by simp)
        subst e1 e2
        simp at hn
    · by_cases h0 : i = 0
      · subst h0
        have hst := hk.stat 0 (by norm_num)
        have hfe := hk.feas 0 hi
        have hc := hk.compl 0 hi
        have hn := hk.nonneg 0 hi
        rw [fold_lag hd] at hst
        rw [l0, hb, if_pos rfl] at hc hfe
        rcases mul_eq_zero.1 hc with hc | hc
        · exact .inr hc
        · rcases x0 with h | h | h <;> rw [h] at hst
          · right; linarith
          · left; norm_num at hst ⊢; linarith
          · exfalso; norm_num at hst; linarith
      · exact .inr (hlam i hi h0)

/-- the steps over the facets of the two regions are right -/
theorem fold_steps {L : Lib} (hL : LibSpec L) {q : MpQP} (hm : q.Made) (hd : q.data = foldQP) : FacetToFacet L q 1 2 1e-5 := by
  have hs : q.data.Shape 1 2 := by rw [hd]; exact foldQP_shape
  intro xa hxa cr0 cr l mf h1 h2 h3
  obtain ⟨a, hrun⟩ := point_from h1
  obtain ⟨s, hs1, hp, rfl⟩ := fold_region hm hd hrun
  obtain ⟨m1, m2⟩ := hp.facets hL hs1 (fun e he => by cases he) h3
  obtain ⟨P, ⟨e1, e2, e3, e4⟩, rfl⟩ := neighbours_like h2
  have hP : IsFold P s := hp.same e1 e2 e3 e4
  have hss : s * s = 1 := by rcases hs1 with rfl | rfl <;> norm_num
  have hv : ∀ y : ℕ → ℝ, ∀ i ∈ mf, Spec.rowVal P.A i y ≤ P.b.e i ↔ (foldRow s i).1 * y 0 + (foldRow s i).2.1 * y 1 ≤ (foldRow s i).2.2 := by
    intro y i hi
    rw [hP.val (m1 i hi), (hP.row i (m1 i hi)).2.2]
  refine ⟨⟨fun j => if j = 0 then - s / 2 else 0, fun i hi => ?_⟩, fun y hy => ?_, fun i hi ya hya => ?_⟩
  · have hi5 := m1 i hi
    show Spec.rowVal P.A i _ < P.b.e i
    rw [hP.val hi5, (hP.row i hi5).2.2]
    rcases hs1 with rfl | rfl <;> interval_cases i <;> simp [foldRow] <;> norm_num
  · have hy : ∀ i < 5, ¬ foldSkip s i → (foldRow s i).1 * y 0 + (foldRow s i).2.1 * y 1 ≤ (foldRow s i).2.2 := fun i hi hsk =>
      (hv y i ((m2 i hi).2 hsk)).1 (hy i ((m2 i hi).2 hsk))
    show P.Mem y
    rw [hP.mem_iff]
    have h0 := hy 0 (by norm_num) (by simp [foldSkip])
    have h2 := hy 2 (by norm_num) (by simp [foldSkip])
    have h4 := hy 4 (by norm_num) (by simp [foldSkip])
    rcases hs1 with rfl | rfl
    · have h3 := hy 3 (by norm_num) (by simp [foldSkip]; norm_num)
      simp [foldRow] at h0 h2 h3 h4
      refine ⟨?_, ?_, ?_, ?_, ?_⟩ <;> linarith
    · have h3 := hy 1 (by norm_num) (by simp [foldSkip]; norm_num)
      simp [foldRow] at h0 h2 h3 h4
      refine ⟨?_, ?_, ?_, ?_, ?_⟩ <;> linarith
  · have hi5 := m1 i hi
    have hcon : ∀ (c : CritReg) (s' : ℝ), IsFold c.polyhedron s' → ya.1.n = 2 → c.contains ya.1 = .ok true →
        ∀ k < 5, (foldRow s' k).1 * ya.1.e 0 + (foldRow s' k).2.1 * ya.1.e 1 ≤ (foldRow s' k).2.2 + 1e-7 := by
      intro c s' hc hn h k hk
      obtain ⟨b, b1, b2⟩ := contains_iff hc.inv (by have := hc.nr; omega) ya.1 hn 1e-7
      have hb : b = true := by
        have h' : c.polyhedron.contains ya.1 = .ok true := h
        rw [b1] at h'
        exact Except.ok.inj h'
      have := (b2.1 hb).1 k (by rw [hc.nr]; exact hk)
      rw [Finset.sum_range_succ, Finset.sum_range_one, (hc.row k hk).1, (hc.row k hk).2.1, (hc.row k hk).2.2] at this
      linarith
    have hyn : ya.1.n = 2 := (beyondFacet_size hya).trans hP.inv.1
    rcases IsFold.beyond hL (cr := { q.fCr a with polyhedron := P }) hP hs1 hi5 ((m2 i hi5).1 hi) hya with ⟨rfl, b1, b2⟩ | ⟨b1, b2⟩
    · refine ⟨fun hnf => absurd ((fold_feas hd _).2 ?_) hnf, fun a' c hc hcy => ?_⟩
      · rw [b1, b2]
        rcases hs1 with rfl | rfl <;> norm_num
      · obtain ⟨s', hs2, hc', rfl⟩ := fold_region hm hd hc
        have h0 := hcon _ s' hc' hyn hcy 0 (by norm_num)
        simp only [foldRow, b1, b2] at h0
        have hopp : s' = -s := by
          rcases hs1 with rfl | rfl <;> rcases hs2 with rfl | rfl
          · exfalso; norm_num at h0
          · rfl
          · norm_num
          · exfalso; norm_num at h0
        subst hopp
        refine ⟨fun y hy1 hy2 => ?_, fun j => if j = 0 then s / 2 else 0, ?_, ?_⟩
        · obtain ⟨-, y1, y2, y3, y4⟩ := (hP.mem_iff y).1 hy1
          have hy2 : Spec.rowVal P.A 0 y = P.b.e 0 := hy2
          rw [hP.val hi5, (hP.row 0 hi5).2.2] at hy2
          simp only [foldRow] at hy2
          rw [hc'.mem_iff]
          exact ⟨by linarith, y1, y2, y3, y4⟩
        · rw [hc'.mem_iff]
          rcases hs1 with rfl | rfl <;> norm_num
        · show P.b.e 0 < Spec.rowVal P.A 0 _
          rw [hP.val hi5, (hP.row 0 hi5).2.2]
          rcases hs1 with rfl | rfl <;> norm_num [foldRow]
    · have hbi : (foldRow s i).2.2 = 1 := by interval_cases i <;> rfl
      refine ⟨fun _ z hz => ?_, fun a' c hc hcy => ?_⟩
      · obtain ⟨z1, z2, z3, z4⟩ := (fold_feas hd z).1 hz
        show Spec.rowVal P.A i z ≤ P.b.e i
        rw [hP.val hi5, (hP.row i hi5).2.2]
        interval_cases i <;> simp [foldRow] <;> linarith
      · exfalso
        obtain ⟨s', hs2, hc', rfl⟩ := fold_region hm hd hc
        have h0 := hcon _ s' hc' hyn hcy i hi5
        have hri : foldRow s' i = foldRow s i := by interval_cases i <;> rfl
        rw [hri, b2, hbi] at h0
        norm_num at h0

/-- C122 for several parameters, on the program `foldQP`: `explicit_solve` ends without exceptions, and each parameter of the box is found in a region of the result. -/
example (L : Lib) (hL : LibSpec L) : ∃ q : MpQP, q.Made ∧ q.data.Shape 1 2 ∧ 0 < q.Au.nr ∧ FacetToFacet L q 1 2 1e-5 ∧
    ∃ N, ∀ fuel ≥ N, ∃ sol : ExplicitSolution, explicit_solve L q fuel = .ok (some sol) ∧
      ∀ x : Vec ℝ, x.n = 2 → |x.e 0| ≤ 1 → |x.e 1| ≤ 1 → ∃ cr ∈ sol, cr.contains x = .ok true := by
  obtain ⟨q, -, hm, hd⟩ := init_made foldQP_shape
  have hs : q.data.Shape 1 2 := by rw [hd]; exact foldQP_shape
  have hA : q.Au.nr = 5 := congrArg (fun P : Spec.ParamQP => P.Au.nr) hd
  have hff := fold_steps hL hm hd
  refine ⟨q, hm, hs, by omega, hff, ?_⟩
  obtain ⟨N, hN⟩ := C84_partial L hL 1 2 q hm hs one_pos (by omega) 1e-5 fun xa hxa hn s lam h1 h2 => by
    by_cases hf : ∃ u, q.data.Feas 1 2 u xa.1.e
    · obtain ⟨s', lam', act, k1, k2, -, -, k3⟩ := fold_answer hL hm hd hxa hf
      rw [h1] at k1
      obtain rfl := Except.ok.inj k1
      rw [h2] at k2
      obtain rfl := Option.some.inj k2
      exact k3
    · obtain ⟨s', k1, -, k2, k3⟩ := (C45_partial L hL 1 2 q hs xa.1 hn (fun _ => xa.1.e 0) (by
        intro j hj
        obtain rfl : j = 0 := by omega
        rw [fold_lag hd]; ring)).1 (by omega)
      rw [h1] at k1
      obtain rfl := Except.ok.inj k1
      rw [k3 (k2.2 (.inl fun u hu => hf ⟨u, hu⟩))] at h2
      cases h2
  refine ⟨N, fun fuel hfuel => ?_⟩
  obtain ⟨r, r1, r2, -⟩ := hN fuel hfuel
  obtain ⟨o, ho⟩ := C123_many_partial L hL 1 2 q hm hs one_pos two_pos (by omega) 1e-5 (fun xa hxa cr hcr => by
    obtain ⟨a, hrun⟩ := point_from hcr
    obtain ⟨s, hs1, hp, rfl⟩ := fold_region hm hd hrun
    refine ⟨⟨fun _ => 0, (hp.mem_iff _).2 (by norm_num), by norm_num⟩, .inr fun mf hmf i hi => ?_⟩
    obtain ⟨m1, m2⟩ := hp.facets hL hs1 (fun e he => by cases he) hmf
    exact ⟨hp.tight hs1 (m1 i hi) ((m2 i (m1 i hi)).1 hi), 1, fun w hw _ => hp.bounded hw⟩) fuel
  cases o with
  | none => exact absurd (r1.symm.trans ho) r2
  | some sol =>
    refine ⟨sol, ho, fun x hx hx0 hx1 => ?_⟩
    obtain ⟨a1, a2⟩ := abs_le.1 hx0
    obtain ⟨b1, b2⟩ := abs_le.1 hx1
    obtain ⟨cr, hcr, -, hcon⟩ := C122_many_partial L hL 1 2 q hm hs one_pos (by omega) 1e-5 fuel sol ho (fun xa hxa hf => fold_answer hL hm hd hxa hf) hff
      ((fold_feas hd _).2 (by norm_num)) x hx ((fold_feas hd _).2 ⟨a2, b2, by linarith, by linarith⟩)
    exact ⟨cr, hcr, hcon⟩

end Verif.Props
