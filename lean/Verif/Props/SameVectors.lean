import Verif.Props.GeomUtils

/- The answers of `same_vectors`. -/
namespace Verif.Props
open Finset

theorem as1d_err {l : List (NDArr ℝ)} (h : ∃ A, NDArr.d2 A ∈ l) : Geom.as1d l = .error .valueError := by
  unfold Geom.as1d
  induction l with
  | nil => obtain ⟨A, hA⟩ := h; cases hA
  | cons z l ih =>
    rw [List.mapM_cons]
    cases z with
    | d2 A => rfl
    | d1 v =>
      obtain ⟨A, hA⟩ := h
      rw [Py.ok_bind, ih ⟨A, by simpa using hA⟩]
      rfl

theorem as1d_ok (l : List (Vec ℝ)) : Geom.as1d (l.map .d1) = .ok l := by
  unfold Geom.as1d
  induction l with
  | nil => rfl
  | cons v l ih =>
    rw [List.map_cons, List.mapM_cons, Py.ok_bind, ih]
    rfl

theorem vstack_sizes {l : List (Vec ℝ)} (h : ∃ v ∈ l, ∃ w ∈ l, v.n ≠ w.n) : np.vstack (l.map Mat.ofRow) = .error .valueError := by
  induction l with
  | nil => obtain ⟨v, hv, -⟩ := h; cases hv
  | cons v l ih =>
    cases l with
    | nil =>
      obtain ⟨a, ha, b, hb, hne⟩ := h
      rw [List.mem_singleton.1 ha, List.mem_singleton.1 hb] at hne
      exact absurd rfl hne
    | cons v' l =>
      show (np.vstack ((v' :: l).map Mat.ofRow) >>= fun C => np.vstack2 (Mat.ofRow v) C) = _
      by_cases h' : ∃ a ∈ v' :: l, ∃ b ∈ v' :: l, a.n ≠ b.n
      · rw [ih h']; rfl
      · push Not at h'
        obtain ⟨C, hC, hCn⟩ := vstack_ofRow_ok (l := v' :: l) (n := v'.n) (by simp) fun a ha => h' a ha v' (by simp)
        rw [hC, Py.ok_bind]
        refine if_neg fun he => ?_
        have he : v.n = v'.n := he.trans hCn
        obtain ⟨a, ha, b, hb, hne⟩ := h
        have hall : ∀ a ∈ v :: v' :: l, a.n = v'.n := fun a ha => by
          rcases List.mem_cons.1 ha with rfl | ha
          · exact he
          · exact h' a ha v' (by simp)
        exact hne ((hall a ha).trans (hall b hb).symm)

/-- C117: `same_vectors` raises `ValueError` if some array has two dimensions, if a list is empty, or if the vectors of one list have different sizes.
Otherwise it answers `False` if the lists have different lengths.  With equal lengths it raises `ValueError` if the vectors of the two lists have
different sizes, none of them one, and gives an answer in the other cases; with equal sizes this is `True` if one list is a
permutation of the other and no two vectors of it are within the tolerances of `allclose`. -/
theorem C117 (v u : List (NDArr ℝ)) :
    ((∃ A, .d2 A ∈ v ++ u) → Geom.same_vectors v u = .error .valueError) ∧
    ∀ v' u' : List (Vec ℝ), v = v'.map .d1 → u = u'.map .d1 →
      (v' = [] ∨ u' = [] ∨ (∃ a ∈ v', ∃ b ∈ v', a.n ≠ b.n) ∨ (∃ a ∈ u', ∃ b ∈ u', a.n ≠ b.n) → Geom.same_vectors v u = .error .valueError) ∧
      ∀ n m, v' ≠ [] → u' ≠ [] → (∀ a ∈ v', a.n = n) → (∀ a ∈ u', a.n = m) →
        (v'.length ≠ u'.length → Geom.same_vectors v u = .ok false) ∧
        (v'.length = u'.length → n ≠ m → n ≠ 1 → m ≠ 1 → Geom.same_vectors v u = .error .valueError) ∧
        (v'.length = u'.length → n = m ∨ n = 1 ∨ m = 1 → ∃ r, Geom.same_vectors v u = .ok r) ∧
        (v'.length = u'.length → n = m → ∀ σ : Fin u'.length ≃ Fin v'.length, (∀ i : Fin u'.length, ∀ j < n, u'[i].e j = v'[σ i].e j) →
            (∀ i k : Fin v'.length, i ≠ k → ∃ j < n, 1e-8 + 1e-5 * |v'[k].e j| < |v'[i].e j - v'[k].e j|) →
            Geom.same_vectors v u = .ok true) := by
  constructor
  · rintro ⟨A, hA⟩
    unfold Geom.same_vectors
    rcases List.mem_append.1 hA with h | h
    · rw [as1d_err ⟨A, h⟩]; rfl
    · by_cases hv : ∃ B, NDArr.d2 B ∈ v
      · rw [as1d_err hv]; rfl
      · obtain ⟨v', rfl⟩ : ∃ v' : List (Vec ℝ), v = v'.map .d1 := by
          clear hA
          induction v with
          | nil => exact ⟨[], rfl⟩
          | cons z v ih =>
            cases z with
            | d2 B => exact absurd ⟨B, by simp⟩ hv
            | d1 w =>
              obtain ⟨v', hv'⟩ := ih fun ⟨B, hB⟩ => hv ⟨B, List.mem_cons_of_mem _ hB⟩
              exact ⟨w :: v', by rw [List.map_cons, ← hv']⟩
        rw [as1d_ok, Py.ok_bind, as1d_err ⟨A, h⟩]
        rfl
  · rintro v' u' rfl rfl
    have hrun : Geom.same_vectors (v'.map .d1) (u'.map .d1) = (do
        let V ← np.vstack (v'.map Mat.ofRow)
        let U ← np.vstack (u'.map Mat.ofRow)
        Geom.same_rows V U false) := by
      unfold Geom.same_vectors
      rw [as1d_ok, Py.ok_bind, as1d_ok, Py.ok_bind]
    rw [hrun]
    constructor
    · intro h
      have hU : ∀ l : List (Vec ℝ), l = [] ∨ (∃ a ∈ l, ∃ b ∈ l, a.n ≠ b.n) → np.vstack (l.map Mat.ofRow) = .error .valueError := by
        rintro l (rfl | h)
        · rfl
        · exact vstack_sizes h
      by_cases hv : v' = [] ∨ ∃ a ∈ v', ∃ b ∈ v', a.n ≠ b.n
      · rw [hU v' hv]; rfl
      · have hu : u' = [] ∨ ∃ a ∈ u', ∃ b ∈ u', a.n ≠ b.n := by
          rcases h with h | h | h | h
          · exact absurd (Or.inl h) hv
          · exact Or.inl h
          · exact absurd (Or.inr h) hv
          · exact Or.inr h
        push Not at hv
        obtain ⟨a, l, rfl⟩ := List.exists_cons_of_ne_nil hv.1
        obtain ⟨V, hV, -⟩ := vstack_ofRow_ok (l := a :: l) (n := a.n) (by simp) fun b hb => hv.2 b hb a (by simp)
        rw [hV, Py.ok_bind, hU u' hu]
        rfl
    · intro n m hv hu hvn hum
      obtain ⟨V, hV, hVn⟩ := vstack_ofRow_ok hv hvn
      obtain ⟨U, hU, hUn⟩ := vstack_ofRow_ok hu hum
      obtain ⟨a1, -, a3⟩ := vstack_ofRow hV
      obtain ⟨b1, -, b3⟩ := vstack_ofRow hU
      rw [hV, Py.ok_bind, hU, Py.ok_bind]
      constructor
      · intro hne
        exact if_pos (by rw [a1, b1]; exact hne)
      have hw : v'.length = u'.length → n ≠ m → ∃ A B : ℕ → List (Option (Vec ℝ)), Geom.same_rows V U false = match np.axisSize n m with
          | none => .error .valueError
          | some w => .ok (Geom.matchRows Geom.allclose (A w) (B w)) := fun hlen hne => by
        unfold Geom.same_rows
        rw [if_neg (by rw [a1, b1]; exact not_not.2 hlen)]
        simp only [Geom.compareRows]
        rw [if_neg (by
          rw [hVn, hUn]
          rintro (h | h)
          · rw [List.map_eq_nil_iff, Geom.rowList, List.map_eq_nil_iff, List.range_eq_nil, a1] at h
            exact hv (List.length_eq_zero_iff.1 h)
          · exact hne h), hVn, hUn]
        exact ⟨_, _, rfl⟩
      refine ⟨fun hlen hne hn hm => ?_, fun hlen h => ?_, ?_⟩
      · obtain ⟨A, B, h⟩ := hw hlen hne
        rw [h, show np.axisSize n m = none by unfold np.axisSize; rw [if_neg (by tauto), if_neg hn]]
      · by_cases hne : n = m
        · unfold Geom.same_rows
          rw [if_neg (by rw [a1, b1]; exact not_not.2 hlen)]
          simp only []
          rw [compareRows_same (by rw [hVn, hUn, hne])]
          exact ⟨_, rfl⟩
        · obtain ⟨A, B, hAB⟩ := hw hlen hne
          rw [hAB]
          have : ∃ w, np.axisSize n m = some w := by
            unfold np.axisSize
            by_cases h1 : n = m ∨ m = 1
            · rw [if_pos h1]; exact ⟨_, rfl⟩
            · rw [if_neg h1, if_pos (by tauto)]; exact ⟨_, rfl⟩
          obtain ⟨w, h2⟩ := this
          rw [h2]
          exact ⟨_, rfl⟩
      · rintro hlen rfl σ hσ hd
        · refine C28_partial V U (by rw [a1, b1, hlen]) (by rw [hVn, hUn]) ((finCongr b1).trans (σ.trans (finCongr a1.symm))) (fun i j hj => ?_) false
            (by simp) fun i hi k hk hik => ?_
          · rw [hVn] at hj
            have h1 := b3 i (by rw [← b1]; exact i.2) j
            rw [h1]
            refine (hσ (finCongr b1 i) j hj).trans ?_
            exact (a3 _ (σ (finCongr b1 i)).2 j).symm
          · simp only [Bool.false_eq_true, if_false, div_one]
            rw [a1] at hi hk
            obtain ⟨j, hj, h⟩ := hd ⟨i, hi⟩ ⟨k, hk⟩ (by simpa using hik)
            refine ⟨j, by rw [hVn]; exact hj, ?_⟩
            rw [a3 i hi j, a3 k hk j]
            exact h

/-- two lists with the same two vectors in different order -/
example : Geom.same_vectors [.d1 ⟨1, fun _ => 0⟩, .d1 ⟨1, fun _ => 1⟩] [.d1 ⟨1, fun _ => 1⟩, .d1 ⟨1, fun _ => 0⟩] = .ok true := by
  refine (((C117 _ _).2 [⟨1, fun _ => 0⟩, ⟨1, fun _ => 1⟩] [⟨1, fun _ => 1⟩, ⟨1, fun _ => 0⟩] rfl rfl).2 1 1 (by simp) (by simp) (by simp) (by simp)).2.2.2 rfl rfl
    (show Fin 2 ≃ Fin 2 from Equiv.swap 0 1) (fun i j _ => ?_) fun i k hik => ⟨0, by norm_num, ?_⟩
  · change Fin 2 at i
    fin_cases i <;> rfl
  · change Fin 2 at i k
    fin_cases i <;> fin_cases k
    · exact absurd rfl hik
    · norm_num
    · norm_num
    · exact absurd rfl hik

/-- vectors of two and of three entries cannot be compared -/
example : Geom.same_vectors [.d1 ⟨2, fun _ => 0⟩] [.d1 ⟨3, fun _ => 0⟩] = .error .valueError :=
  (((C117 _ _).2 [⟨2, fun _ => 0⟩] [⟨3, fun _ => 0⟩] rfl rfl).2 2 3 (by simp) (by simp) (by simp) (by simp)).2.1 rfl (by norm_num) (by norm_num)
    (by norm_num)

end Verif.Props
