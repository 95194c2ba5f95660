import Verif.Model.NormalizeRaise
import Verif.Props.RejectedRows

/-
C153: `normalize` on objects whose right-hand sides may have fewer entries than there are rows.
-/
namespace Verif.Props
open Finset

/-- the sizes stay, and the rows that have a right-hand side keep their half space and their hyperplane -/
theorem normalizeLoop_keeps {tol : ℝ} (ht : 0 ≤ tol) (l : List ℕ) : ∀ s : Mat ℝ × Vec ℝ,
    let s' := (Poly.normalizeLoop tol l s).2
    s'.1.nr = s.1.nr ∧ s'.1.nc = s.1.nc ∧ s'.2.n = s.2.n ∧ ∀ k < s.2.n, ∀ x : ℕ → ℝ,
      (∑ j ∈ range s.1.nc, s'.1.e k j * x j ≤ s'.2.e k ↔ ∑ j ∈ range s.1.nc, s.1.e k j * x j ≤ s.2.e k) ∧
      (∑ j ∈ range s.1.nc, s'.1.e k j * x j = s'.2.e k ↔ ∑ j ∈ range s.1.nc, s.1.e k j * x j = s.2.e k) := by
  induction l with
  | nil => intro s; exact ⟨rfl, rfl, rfl, fun _ _ _ => ⟨Iff.rfl, Iff.rfl⟩⟩
  | cons i l ih =>
    intro s
    unfold Poly.normalizeLoop
    simp only
    have hdiv : ∀ r : ℝ, 0 < r → ∀ x : ℕ → ℝ,
        ∑ j ∈ range s.1.nc, s.1.e i j / r * x j = (∑ j ∈ range s.1.nc, s.1.e i j * x j) / r := by
      intro r hr x
      rw [Finset.sum_div]
      exact Finset.sum_congr rfl fun j _ => by ring
    split_ifs with h1 h2
    · have hr : 0 < vnorm (s.1.row i) := lt_of_le_of_lt ht h1
      obtain ⟨a1, a2, a3, a4⟩ := ih (Poly.divRow s.1 i (vnorm (s.1.row i)), Poly.divEntry s.2 i (vnorm (s.1.row i)))
      refine ⟨a1, a2, a3, fun k hk x => ?_⟩
      have hk' := a4 k hk x
      have hs : (∑ j ∈ range s.1.nc, (Poly.divRow s.1 i (vnorm (s.1.row i))).e k j * x j ≤ (Poly.divEntry s.2 i (vnorm (s.1.row i))).e k
          ↔ ∑ j ∈ range s.1.nc, s.1.e k j * x j ≤ s.2.e k) ∧
          (∑ j ∈ range s.1.nc, (Poly.divRow s.1 i (vnorm (s.1.row i))).e k j * x j = (Poly.divEntry s.2 i (vnorm (s.1.row i))).e k
          ↔ ∑ j ∈ range s.1.nc, s.1.e k j * x j = s.2.e k) := by
        unfold Poly.divRow Poly.divEntry
        by_cases hki : k = i
        · subst hki
          simp only [if_true]
          rw [hdiv _ hr]
          exact ⟨div_le_div_iff_of_pos_right hr, div_left_inj' hr.ne'⟩
        · simp only [if_neg hki]
          exact ⟨trivial, trivial⟩
      exact ⟨hk'.1.trans hs.1, hk'.2.trans hs.2⟩
    · refine ⟨rfl, rfl, rfl, fun k hk x => ?_⟩
      have hki : k ≠ i := by rintro rfl; exact h2 hk
      unfold Poly.divRow
      simp only [if_neg hki, and_self]
    · exact ih s

/-- the loop either ends or raises `IndexError` -/
theorem normalizeLoop_result (tol : ℝ) (l : List ℕ) : ∀ s : Mat ℝ × Vec ℝ,
    (Poly.normalizeLoop tol l s).1 = .ok () ∨ (Poly.normalizeLoop tol l s).1 = .error .indexError := by
  induction l with
  | nil => intro s; exact .inl rfl
  | cons i l ih =>
    intro s
    unfold Poly.normalizeLoop
    simp only
    split_ifs with h1 h2
    · exact ih _
    · exact .inr rfl
    · exact ih s

/-- the loop ends exactly if the rows that are divided have a right-hand side -/
theorem normalizeLoop_ok (tol : ℝ) (l : List ℕ) (hl : l.Nodup) : ∀ s : Mat ℝ × Vec ℝ,
    (Poly.normalizeLoop tol l s).1 = .ok () ↔ ∀ i ∈ l, tol < vnorm (s.1.row i) → i < s.2.n := by
  induction l with
  | nil => intro s; simp [Poly.normalizeLoop]
  | cons i l ih =>
    intro s
    have hi := (List.nodup_cons.1 hl).1
    unfold Poly.normalizeLoop
    simp only
    split_ifs with h1 h2
    · rw [ih (List.nodup_cons.1 hl).2]
      have hrow : ∀ k ∈ l, (Poly.divRow s.1 i (vnorm (s.1.row i))).row k = s.1.row k := by
        intro k hk
        have hki : k ≠ i := by rintro rfl; exact hi hk
        unfold Poly.divRow Mat.row
        simp only [if_neg hki]
      constructor
      · intro h k hk hn
        rcases List.mem_cons.1 hk with rfl | hk
        · exact h2
        · exact h k hk (by rw [hrow k hk]; exact hn)
      · intro h k hk hn
        exact h k (List.mem_cons_of_mem _ hk) (by rw [hrow k hk] at hn; exact hn)
    · constructor
      · intro h; cases h
      · intro h; exact absurd (h i List.mem_cons_self h1) h2
    · rw [ih (List.nodup_cons.1 hl).2]
      constructor
      · intro h k hk hn
        rcases List.mem_cons.1 hk with rfl | hk
        · exact absurd hn h1
        · exact h k hk hn
      · exact fun h k hk hn => h k (List.mem_cons_of_mem _ hk) hn

/-- the loop that ends does what the loop of `Poly.normalize` does -/
theorem normalizeLoop_eq (tol : ℝ) (l : List ℕ) : ∀ s : Mat ℝ × Vec ℝ, (Poly.normalizeLoop tol l s).1 = .ok () →
    (Poly.normalizeLoop tol l s).2 = l.foldl (Poly.normalizeRow tol) s := by
  induction l with
  | nil => intro s _; rfl
  | cons i l ih =>
    intro s h
    rw [List.foldl_cons]
    unfold Poly.normalizeRow
    unfold Poly.normalizeLoop at h ⊢
    simp only at h ⊢
    split_ifs at h ⊢ with h1 h2
    · exact ih _ h
    · exact ih _ h

/-- C153: on any object, with any number of right-hand sides, `normalize` ends or raises `IndexError`; it ends exactly if every row with norm above
the threshold has a right-hand side; whatever happens the sizes stay and every row that has a right-hand side keeps its half space or hyperplane;
and if it ends the object is the one of `C07`. -/
theorem C153 (p : Poly) (tol : ℝ) (ht : 0 ≤ tol) :
    ((Poly.normalizeAny tol p).1 = .ok () ∨ (Poly.normalizeAny tol p).1 = .error .indexError) ∧
    ((Poly.normalizeAny tol p).1 = .ok () ↔
      (∀ i < p.A.nr, tol < Real.sqrt (∑ j ∈ range p.A.nc, p.A.e i j ^ 2) → i < p.b.n) ∧
      (∀ i < p.C.nr, tol < Real.sqrt (∑ j ∈ range p.C.nc, p.C.e i j ^ 2) → i < p.d.n)) ∧
    ((Poly.normalizeAny tol p).1 = .ok () → (Poly.normalizeAny tol p).2 = p.normalize tol) ∧
    let q := (Poly.normalizeAny tol p).2
    q.A.nr = p.A.nr ∧ q.A.nc = p.A.nc ∧ q.b.n = p.b.n ∧ q.C.nr = p.C.nr ∧ q.C.nc = p.C.nc ∧ q.d.n = p.d.n ∧
    (∀ k < p.b.n, ∀ x : ℕ → ℝ,
      (∑ j ∈ range p.A.nc, q.A.e k j * x j ≤ q.b.e k ↔ ∑ j ∈ range p.A.nc, p.A.e k j * x j ≤ p.b.e k)) ∧
    (∀ k < p.d.n, ∀ x : ℕ → ℝ,
      (∑ j ∈ range p.C.nc, q.C.e k j * x j = q.d.e k ↔ ∑ j ∈ range p.C.nc, p.C.e k j * x j = p.d.e k)) := by
  have hA := normalizeLoop_ok tol (List.range p.A.nr) List.nodup_range (p.A, p.b)
  have hC := normalizeLoop_ok tol (List.range p.C.nr) List.nodup_range (p.C, p.d)
  simp only [List.mem_range] at hA hC
  have vA : ∀ i, vnorm (p.A.row i) = Real.sqrt (∑ j ∈ range p.A.nc, p.A.e i j ^ 2) := fun i => by
    unfold vnorm; congr 1
  have vC : ∀ i, vnorm (p.C.row i) = Real.sqrt (∑ j ∈ range p.C.nc, p.C.e i j ^ 2) := fun i => by
    unfold vnorm; congr 1
  simp only [vA] at hA
  simp only [vC] at hC
  have kA := normalizeLoop_keeps ht (List.range p.A.nr) (p.A, p.b)
  have kC := normalizeLoop_keeps ht (List.range p.C.nr) (p.C, p.d)
  have eA := normalizeLoop_eq tol (List.range p.A.nr) (p.A, p.b)
  have eC := normalizeLoop_eq tol (List.range p.C.nr) (p.C, p.d)
  rcases hr : Poly.normalizeLoop tol (List.range p.A.nr) (p.A, p.b) with ⟨r | r, Ab⟩
  · have hq : Poly.normalizeAny tol p = (.error r, { p with A := Ab.1, b := Ab.2 }) := by
      unfold Poly.normalizeAny; rw [hr]
    have hre : r = .indexError := by
      rcases normalizeLoop_result tol (List.range p.A.nr) (p.A, p.b) with h | h <;> rw [hr] at h <;> cases h
      rfl
    rw [hr] at hA kA
    rw [hq]
    refine ⟨.inr (by rw [hre]), ⟨fun h => (by cases h), fun h => ?_⟩, fun h => (by cases h), kA.1, kA.2.1, kA.2.2.1, rfl, rfl, rfl,
      fun k hk x => (kA.2.2.2 k hk x).1, fun k _ x => Iff.rfl⟩
    have := hA.2 h.1
    cases this
  · have hq : Poly.normalizeAny tol p = ((Poly.normalizeLoop tol (List.range p.C.nr) (p.C, p.d)).1,
        { p with A := Ab.1, b := Ab.2, C := (Poly.normalizeLoop tol (List.range p.C.nr) (p.C, p.d)).2.1,
                 d := (Poly.normalizeLoop tol (List.range p.C.nr) (p.C, p.d)).2.2 }) := by
      unfold Poly.normalizeAny; rw [hr]
    rw [hr] at hA kA eA
    rw [hq]
    refine ⟨normalizeLoop_result _ _ _, ⟨fun h => ⟨hA.1 rfl, hC.1 h⟩, fun h => hC.2 h.2⟩, fun h => ?_, kA.1, kA.2.1, kA.2.2.1, kC.1, kC.2.1, kC.2.2.1,
      fun k hk x => (kA.2.2.2 k hk x).1, fun k hk x => (kC.2.2.2 k hk x).2⟩
    have e1 := eA rfl
    have e2 := eC h
    unfold Poly.normalize
    simp only
    rw [← e2, ← e1]

/-- where the loop stands when it raises: the rows up to the one without a right-hand side are divided, the right-hand sides before it too -/
theorem normalizeLoop_raised (tol : ℝ) (m : ℕ) : ∀ (a : ℕ) (s : Mat ℝ × Vec ℝ) (e : PyErr),
    (Poly.normalizeLoop tol (List.range' a m) s).1 = .error e →
    ∃ i, a ≤ i ∧ i < a + m ∧ tol < vnorm (s.1.row i) ∧ s.2.n ≤ i ∧
      (∀ k, a ≤ k → k < i → tol < vnorm (s.1.row k) → k < s.2.n) ∧
      (∀ k j, (Poly.normalizeLoop tol (List.range' a m) s).2.1.e k j =
        if a ≤ k ∧ k ≤ i ∧ tol < vnorm (s.1.row k) then s.1.e k j / vnorm (s.1.row k) else s.1.e k j) ∧
      (∀ k, (Poly.normalizeLoop tol (List.range' a m) s).2.2.e k =
        if a ≤ k ∧ k < i ∧ tol < vnorm (s.1.row k) then s.2.e k / vnorm (s.1.row k) else s.2.e k) := by
  induction m with
  | zero => intro a s e h; cases h
  | succ m ih =>
    intro a s e h
    rw [List.range'_succ] at h ⊢
    unfold Poly.normalizeLoop at h ⊢
    simp only at h ⊢
    split_ifs at h ⊢ with h1 h2
    · obtain ⟨i, g1, g2, g3, g4, g5, g6, g7⟩ := ih (a + 1) _ e h
      have hrow : ∀ k, k ≠ a → (Poly.divRow s.1 a (vnorm (s.1.row a))).row k = s.1.row k := by
        intro k hki
        unfold Poly.divRow Mat.row
        simp only [if_neg hki]
      simp only at g3 g4 g5
      rw [hrow i (by omega)] at g3
      have g4' : s.2.n ≤ i := g4
      refine ⟨i, by omega, by omega, g3, g4', fun k hk hki hn => ?_, fun k j => ?_, fun k => ?_⟩
      · rcases eq_or_ne k a with rfl | hka
        · exact h2
        · exact g5 k (by omega) hki (by rw [hrow k hka]; exact hn)
      · rw [g6]
        rcases eq_or_ne k a with rfl | hka
        · rw [if_neg (by omega), if_pos ⟨le_refl _, by omega, h1⟩]
          unfold Poly.divRow
          simp only [if_true]
        · simp only [hrow k hka]
          have he : (Poly.divRow s.1 a (vnorm (s.1.row a))).e k j = s.1.e k j := by
            unfold Poly.divRow; simp only [if_neg hka]
          rw [he]
          have hiff : (a + 1 ≤ k ∧ k ≤ i ∧ tol < vnorm (s.1.row k)) ↔ (a ≤ k ∧ k ≤ i ∧ tol < vnorm (s.1.row k)) :=
            ⟨fun h => ⟨by omega, h.2⟩, fun h => ⟨by omega, h.2⟩⟩
          simp only [hiff]
      · rw [g7]
        rcases eq_or_ne k a with rfl | hka
        · rw [if_neg (by omega), if_pos ⟨le_refl _, by omega, h1⟩]
          unfold Poly.divEntry
          simp only [if_true]
        · simp only [hrow k hka]
          have he : (Poly.divEntry s.2 a (vnorm (s.1.row a))).e k = s.2.e k := by
            unfold Poly.divEntry; simp only [if_neg hka]
          rw [he]
          have hiff : (a + 1 ≤ k ∧ k < i ∧ tol < vnorm (s.1.row k)) ↔ (a ≤ k ∧ k < i ∧ tol < vnorm (s.1.row k)) :=
            ⟨fun h => ⟨by omega, h.2⟩, fun h => ⟨by omega, h.2⟩⟩
          simp only [hiff]
    · refine ⟨a, le_refl _, by omega, h1, by omega, fun k hk hka => by omega, fun k j => ?_, fun k => ?_⟩
      · unfold Poly.divRow
        simp only
        rcases eq_or_ne k a with rfl | hka
        · rw [if_pos rfl, if_pos ⟨le_refl _, le_refl _, h1⟩]
        · rw [if_neg hka, if_neg (by omega)]
      · rw [if_neg (by omega)]
    · obtain ⟨i, g1, g2, g3, g4, g5, g6, g7⟩ := ih (a + 1) s e h
      refine ⟨i, by omega, by omega, g3, g4, fun k hk hki hn => ?_, fun k j => ?_, fun k => ?_⟩
      · rcases eq_or_ne k a with rfl | hka
        · exact absurd hn h1
        · exact g5 k (by omega) hki hn
      · rw [g6]
        have hiff : (a + 1 ≤ k ∧ k ≤ i ∧ tol < vnorm (s.1.row k)) ↔ (a ≤ k ∧ k ≤ i ∧ tol < vnorm (s.1.row k)) := by
          refine ⟨fun h => ⟨by omega, h.2⟩, fun h => ⟨?_, h.2⟩⟩
          rcases eq_or_ne k a with rfl | hka
          · exact absurd h.2.2 h1
          · omega
        simp only [hiff]
      · rw [g7]
        have hiff : (a + 1 ≤ k ∧ k < i ∧ tol < vnorm (s.1.row k)) ↔ (a ≤ k ∧ k < i ∧ tol < vnorm (s.1.row k)) := by
          refine ⟨fun h => ⟨by omega, h.2⟩, fun h => ⟨?_, h.2⟩⟩
          rcases eq_or_ne k a with rfl | hka
          · exact absurd h.2.2 h1
          · omega
        simp only [hiff]

/-- the object after an exception: the half spaces raise first and leave the hyperplanes as they were, otherwise they are those of `C07` -/
theorem C153_raised (p : Poly) (tol : ℝ) (e : PyErr) (q : Poly) (h : Poly.normalizeAny tol p = (.error e, q)) :
    let a := fun i => Real.sqrt (∑ j ∈ range p.A.nc, p.A.e i j ^ 2)
    let c := fun i => Real.sqrt (∑ j ∈ range p.C.nc, p.C.e i j ^ 2)
    (∃ i < p.A.nr, tol < a i ∧ p.b.n ≤ i ∧ (∀ k < i, tol < a k → k < p.b.n) ∧
      (∀ k j, q.A.e k j = if k ≤ i ∧ tol < a k then p.A.e k j / a k else p.A.e k j) ∧
      (∀ k, q.b.e k = if k < i ∧ tol < a k then p.b.e k / a k else p.b.e k) ∧ q.C = p.C ∧ q.d = p.d) ∨
    ((∀ k < p.A.nr, tol < a k → k < p.b.n) ∧ q.A = (p.normalize tol).A ∧ q.b = (p.normalize tol).b ∧
      ∃ i < p.C.nr, tol < c i ∧ p.d.n ≤ i ∧ (∀ k < i, tol < c k → k < p.d.n) ∧
      (∀ k j, q.C.e k j = if k ≤ i ∧ tol < c k then p.C.e k j / c k else p.C.e k j) ∧
      (∀ k, q.d.e k = if k < i ∧ tol < c k then p.d.e k / c k else p.d.e k)) := by
  intro a c
  have vA : ∀ i, vnorm (p.A.row i) = a i := fun i => by
    unfold vnorm; congr 1
  have vC : ∀ i, vnorm (p.C.row i) = c i := fun i => by
    unfold vnorm; congr 1
  have hA := normalizeLoop_ok tol (List.range p.A.nr) List.nodup_range (p.A, p.b)
  simp only [List.mem_range, vA] at hA
  have eA := normalizeLoop_eq tol (List.range p.A.nr) (p.A, p.b)
  have rA := normalizeLoop_raised tol p.A.nr 0 (p.A, p.b)
  have rC := normalizeLoop_raised tol p.C.nr 0 (p.C, p.d)
  simp only [← List.range_eq_range', zero_le, true_and, forall_const, zero_add, vA, vC] at rA rC
  rcases hr : Poly.normalizeLoop tol (List.range p.A.nr) (p.A, p.b) with ⟨r | r, Ab⟩
  · unfold Poly.normalizeAny at h
    rw [hr] at h rA
    simp only [Prod.mk.injEq] at h
    obtain ⟨i, g⟩ := rA r rfl
    obtain ⟨-, rfl⟩ := h
    exact .inl ⟨i, g.1, g.2.1, g.2.2.1, g.2.2.2.1, g.2.2.2.2.1, g.2.2.2.2.2, rfl, rfl⟩
  · unfold Poly.normalizeAny at h
    rw [hr] at h hA eA
    simp only [Prod.mk.injEq] at h
    obtain ⟨i, g⟩ := rC e h.1
    obtain ⟨-, rfl⟩ := h
    refine .inr ⟨hA.1 rfl, ?_, ?_, i, g⟩
    · unfold Poly.normalize
      simp only
      rw [← eA rfl]
    · unfold Poly.normalize
      simp only
      rw [← eA rfl]

/-- after the addition of `2 x ≤ 9` to `x ≤ 1` was rejected, `normalize` raises -/
example : ∃ q, Poly.add_inequality ⟨1, 1, fun _ _ => 2⟩ (.d2 ⟨1, 1, fun _ _ => 9⟩) none belowOne = (.error .valueError, q) ∧
    (Poly.normalizeAny 1e-7 q).1 = .error .indexError := by
  refine ⟨_, rfl, ?_⟩
  refine (C153 _ 1e-7 (by norm_num)).1.resolve_left fun h => ?_
  have := ((C153 _ 1e-7 (by norm_num)).2.1.1 h).1 1 (by show 1 < 1 + 1; omega) ?_
  · exact absurd (show 1 < 1 from this) (by omega)
  · show (1e-7 : ℝ) < Real.sqrt (∑ j ∈ range 1, (∑ k ∈ range 1, 2 * (Mat.eye 1 : Mat ℝ).e k j) ^ 2)
    have : ∑ j ∈ range 1, (∑ k ∈ range 1, 2 * (Mat.eye 1 : Mat ℝ).e k j) ^ 2 = 2 ^ 2 := by
      simp [Mat.eye_e]
    rw [this, Real.sqrt_sq (by norm_num)]
    norm_num

/-- what is left of that object is `x ≤ 1` and a row `x` without a right-hand side -/
example (q : Poly) (e : PyErr) (h : Poly.normalizeAny 1e-7 (Poly.fresh ⟨2, 1, fun i _ => (i : ℝ) + 1⟩ ⟨1, fun _ => 1⟩ (Mat.zeros 0 1) (Vec.zeros 0)) =
    (.error e, q)) : q.A.e 0 0 = 1 ∧ q.A.e 1 0 = 1 ∧ q.b.e 0 = 1 := by
  have h1 : ∀ i : ℕ, Real.sqrt (∑ j ∈ range 1, ((i : ℝ) + 1) ^ 2) = (i : ℝ) + 1 := fun i => by
    rw [Finset.sum_const, Finset.card_range, one_smul, Real.sqrt_sq (by positivity)]
  have := C153_raised _ _ _ _ h
  simp only [Poly.fresh, Mat.zeros, h1] at this
  rcases this with ⟨i, hi, -, hb, -, hA, hb', -⟩ | ⟨-, -, -, i, hi, -⟩
  · have hi1 : i = 1 := by omega
    subst hi1
    rw [hA, hA, hb']
    norm_num
  · omega

end Verif.Props
