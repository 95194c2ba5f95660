import Verif.Model.TestVectors
import Verif.Props.GeomUtils

/- C203: the test of `same_vectors`. -/
namespace Verif.TestSuite
open Finset Verif.Props Spec

theorem as1d_ofFn {N : ℕ} (f : Fin N → Vec ℝ) : Geom.as1d (List.ofFn fun j => NDArr.d1 (f j)) = .ok (List.ofFn f) := by
  induction N with
  | zero => rfl
  | succ N ih =>
    rw [List.ofFn_succ, List.ofFn_succ]
    unfold Geom.as1d at ih ⊢
    rw [List.mapM_cons]
    show ((Except.ok (f 0) : Py (Vec ℝ)) >>= _) = _
    rw [Py.ok_bind, ih (fun j => f j.succ), Py.ok_bind]
    rfl

theorem as1d_rejects {l : List (NDArr ℝ)} (h : ∃ M, NDArr.d2 M ∈ l) : Geom.as1d l = .error .valueError := by
  induction l with
  | nil => simp at h
  | cons a l ih =>
    unfold Geom.as1d at ih ⊢
    rw [List.mapM_cons]
    cases a with
    | d2 M => rfl
    | d1 v =>
      have : ∃ M, NDArr.d2 M ∈ l := by
        obtain ⟨M, hM⟩ := h
        exact ⟨M, by simpa using hM⟩
      show ((Except.ok v : Py (Vec ℝ)) >>= _) = _
      rw [Py.ok_bind, ih this]
      rfl

/-- the array of the vectors -/
theorem vstack_ofFn {N n : ℕ} (hN : 0 < N) (f : Fin N → ℕ → ℝ) : ∃ P : Mat ℝ, np.vstack ((List.ofFn fun j => (⟨n, f j⟩ : Vec ℝ)).map Mat.ofRow) = .ok P ∧
    P.nr = N ∧ P.nc = n ∧ ∀ (i : Fin N) j, P.e i j = f i j := by
  obtain ⟨P, h1, h2⟩ := vstack_ofRow_ok (l := List.ofFn fun j => (⟨n, f j⟩ : Vec ℝ)) (by
    intro h
    have := congrArg List.length h
    simp at this
    omega) (n := n) (fun v hv => by
      obtain ⟨j, rfl⟩ := (List.mem_ofFn' _ _).1 hv
      rfl)
  obtain ⟨a1, -, a3⟩ := vstack_ofRow h1
  refine ⟨P, h1, by rw [a1, List.length_ofFn], h2, fun i j => ?_⟩
  rw [a3 i (by simp) j, List.getElem_ofFn]

theorem same_vectors_eq {N n : ℕ} (hN : 0 < N) (f g : Fin N → ℕ → ℝ) : ∃ P Q : Mat ℝ,
    Geom.same_vectors (List.ofFn fun j => NDArr.d1 ⟨n, f j⟩) (List.ofFn fun j => NDArr.d1 ⟨n, g j⟩) = Geom.same_rows P Q false ∧
    (P.nr = N ∧ P.nc = n ∧ ∀ (i : Fin N) j, P.e i j = f i j) ∧ Q.nr = N ∧ Q.nc = n ∧ ∀ (i : Fin N) j, Q.e i j = g i j := by
  obtain ⟨P, h1, p⟩ := vstack_ofFn (n := n) hN f
  obtain ⟨Q, k1, q⟩ := vstack_ofFn (n := n) hN g
  refine ⟨P, Q, ?_, p, q⟩
  unfold Geom.same_vectors
  rw [as1d_ofFn, Py.ok_bind, as1d_ofFn, Py.ok_bind, h1, Py.ok_bind, k1, Py.ok_bind]

/-- `allclose` sees a difference of the vectors -/
def Distinct {N : ℕ} (n : ℕ) (v : Fin N → ℕ → ℝ) : Prop := ∀ i k, i ≠ k → ∃ j < n, 1e-8 + 1e-5 * |v k j| < |v i j - v k j|

/-- a list and the list in another order -/
theorem same_vectors_perm {N n : ℕ} (hN : 0 < N) (v : Fin N → ℕ → ℝ) (σ : Equiv.Perm (Fin N)) (h : Distinct n v) :
    Geom.same_vectors (List.ofFn fun j => NDArr.d1 ⟨n, v j⟩) (List.ofFn fun j => NDArr.d1 ⟨n, v (σ j)⟩) = .ok true := by
  obtain ⟨P, Q, e, ⟨p1, p2, p3⟩, q1, q2, q3⟩ := same_vectors_eq hN v fun j => v (σ j)
  rw [e]
  obtain ⟨pr, pc, P⟩ := P
  obtain ⟨qr, qc, Q⟩ := Q
  dsimp only at p1 p2 p3 q1 q2 q3
  subst p1 p2 q1 q2
  refine C28_partial ⟨qr, qc, P⟩ ⟨qr, qc, Q⟩ rfl rfl σ (fun i j _ => ?_) false (fun h => by cases h) fun i hi k hk hik => ?_
  · exact (q3 i j).trans (p3 (σ i) j).symm
  · obtain ⟨j, hj, hd⟩ := h ⟨i, hi⟩ ⟨k, hk⟩ fun h => hik (congrArg Fin.val h)
    simp only [Bool.false_eq_true, if_false, div_one]
    refine ⟨j, hj, ?_⟩
    have e1 := p3 ⟨i, hi⟩ j
    have e2 := p3 ⟨k, hk⟩ j
    dsimp only at e1 e2
    rwa [e1, e2]

theorem matchRows_two {α : Type} {close : α → α → Bool} {a : α} {as B : List α} {i k : ℕ} (hik : i ≠ k) (hi : (B[i]?).any (close a) = true)
    (hk : (B[k]?).any (close a) = true) : Geom.matchRows close (a :: as) B = false := by
  have lt : ∀ {i : ℕ}, (B[i]?).any (close a) = true → i < B.length := fun {i} h => by
    by_contra hn
    rw [List.getElem?_eq_none (not_lt.1 hn)] at h
    cases h
  have mi : i ∈ (List.range B.length).filter fun i => (B[i]?).any (close a) := List.mem_filter.2 ⟨List.mem_range.2 (lt hi), hi⟩
  have mk : k ∈ (List.range B.length).filter fun i => (B[i]?).any (close a) := List.mem_filter.2 ⟨List.mem_range.2 (lt hk), hk⟩
  unfold Geom.matchRows
  split
  · next x hx =>
    rw [hx] at mi mk
    exact absurd ((List.mem_singleton.1 mi).trans (List.mem_singleton.1 mk).symm) hik
  · rfl

/-- a list in which the first vector is twice is not found to be the same as itself -/
theorem same_vectors_twice {N n : ℕ} (hN : 0 < N) (v : Fin N → ℕ → ℝ) (k : Fin N) (hk : k ≠ ⟨0, hN⟩) (h : ∀ j < n, v k j = v ⟨0, hN⟩ j) :
    Geom.same_vectors (List.ofFn fun j => NDArr.d1 ⟨n, v j⟩) (List.ofFn fun j => NDArr.d1 ⟨n, v j⟩) = .ok false := by
  obtain ⟨P, Q, e, ⟨p1, p2, p3⟩, q1, q2, q3⟩ := same_vectors_eq hN v v
  rw [e]
  unfold Geom.same_rows
  rw [if_neg (by rw [p1, q1]; simp)]
  dsimp only
  rw [compareRows_same (p2.trans q2.symm)]
  congr 1
  obtain ⟨N, rfl⟩ : ∃ M, N = M + 1 := ⟨N - 1, by omega⟩
  simp only [Geom.rowList, p1, q1, Bool.false_eq_true, if_false, List.map_map]
  rw [List.range_succ_eq_map, List.map_cons]
  have close : ∀ i : Fin (N + 1), (∀ j < n, v i j = v ⟨0, hN⟩ j) → Geom.allclose (some (P.row 0)) (some (Q.row i)) = true := fun i hi => by
    simp only [Geom.allclose, decide_eq_true_eq]
    intro j hj
    have hj : j < n := by rw [← p2]; exact hj
    show |P.e 0 j - Q.e i j| ≤ _
    have e1 := p3 ⟨0, hN⟩ j
    dsimp only at e1
    rw [e1, q3, hi j hj, sub_self, abs_zero]
    positivity
  refine matchRows_two (i := 0) (k := k) (fun h => hk (Fin.ext h.symm)) ?_ ?_
  · rw [← List.range_succ_eq_map]
    simpa using close ⟨0, hN⟩ fun _ _ => rfl
  · rw [← List.range_succ_eq_map]
    rw [List.getElem?_map, List.getElem?_range k.2]
    exact close k h

theorem vecRound_ok {r : VecDraw} (h : Distinct 10 r.v) : sameVectorsRound r = .ok () := by
  unfold sameVectorsRound
  dsimp only
  rw [same_vectors_perm (by norm_num) r.v r.order h]
  rfl

theorem vecRounds_ok {l : List VecDraw} (h : ∀ r ∈ l, Distinct 10 r.v) : sameVectorsRounds l = .ok () := by
  induction l with
  | nil => rfl
  | cons r l ih =>
    show (sameVectorsRound r >>= fun _ => sameVectorsRounds l) = _
    rw [vecRound_ok (h r (by simp)), Py.ok_bind]
    exact ih fun s hs => h s (by simp [hs])

/-- C203, what holds: `test_same_vectors` passes if in every iteration `allclose` tells the vectors apart, whatever the orders and the numbers of the last lists are.
Behind it are two facts on `same_vectors` for any number of vectors of any size: it is `True` on a list of vectors that `allclose` tells apart and the same list in any order,
and it raises `ValueError` if there is an array with two axes in one of the lists.  Missing: the other numbers that `np.random.rand` can give, see `C203_false`. -/
theorem C203_partial :
    (∀ (draws : Fin 10 → VecDraw) (last : VecDraw), (∀ t, Distinct 10 (draws t).v) → test_same_vectors draws last = .ok ()) ∧
    (∀ (N n : ℕ) (v : Fin N → ℕ → ℝ) (σ : Equiv.Perm (Fin N)), 0 < N → Distinct n v →
      Geom.same_vectors (List.ofFn fun j => NDArr.d1 ⟨n, v j⟩) (List.ofFn fun j => NDArr.d1 ⟨n, v (σ j)⟩) = .ok true) ∧
    ∀ v u : List (NDArr ℝ), (∃ M, NDArr.d2 M ∈ v ∨ NDArr.d2 M ∈ u) → Geom.same_vectors v u = .error .valueError := by
  have key : ∀ v u : List (NDArr ℝ), (∃ M, NDArr.d2 M ∈ v ∨ NDArr.d2 M ∈ u) → Geom.same_vectors v u = .error .valueError := by
    rintro v u ⟨M, h⟩
    unfold Geom.same_vectors
    by_cases hv : ∃ M, NDArr.d2 M ∈ v
    · rw [as1d_rejects hv]
      rfl
    · have hu : ∃ M, NDArr.d2 M ∈ u := h.elim (fun h => absurd ⟨M, h⟩ hv) fun h => ⟨M, h⟩
      cases e : Geom.as1d v with
      | ok w =>
        rw [Py.ok_bind, as1d_rejects hu]
        rfl
      | error x =>
        exfalso
        clear h hu
        induction v generalizing x with
        | nil => cases e
        | cons a l ih =>
          unfold Geom.as1d at e ih
          rw [List.mapM_cons] at e
          cases a with
          | d2 M => exact hv ⟨M, by simp⟩
          | d1 a =>
            have e : ((l.mapM fun z => match z with
              | .d1 v => (.ok v : Py (Vec ℝ))
              | .d2 _ => .error .valueError) >>= fun w => pure (a :: w)) = .error x := e
            cases e' : (l.mapM fun z => match z with
              | .d1 v => (.ok v : Py (Vec ℝ))
              | .d2 _ => .error .valueError) with
            | ok w => rw [e'] at e; cases e
            | error y => exact ih (fun ⟨M, h⟩ => hv ⟨M, by simp [h]⟩) y e'
  refine ⟨fun draws last h => ?_, fun N n v σ hN h => same_vectors_perm hN v σ h, key⟩
  unfold test_same_vectors
  rw [vecRounds_ok fun r hr => by
    obtain ⟨t, rfl⟩ := (List.mem_ofFn' _ _).1 hr
    exact h t, Py.ok_bind]
  dsimp only
  rw [key _ _ ⟨⟨10, 1, fun i _ => last.v 0 i⟩, Or.inl ((List.mem_ofFn' _ _).2 ⟨0, rfl⟩)⟩]
  rfl

/-- C203 is false as it stands: if the vectors that `np.random.rand` gives are all equal, the test fails. -/
theorem C203_false : ∃ draws : Fin 10 → VecDraw, (∀ t j i, 0 ≤ (draws t).v j i ∧ (draws t).v j i < 1) ∧
    ∀ last, test_same_vectors draws last = .error .assertionError := by
  refine ⟨fun _ => ⟨fun _ _ => 1 / 2, 1⟩, fun _ _ _ => by norm_num, fun last => ?_⟩
  have h : sameVectorsRound ⟨fun _ _ => 1 / 2, 1⟩ = .error .assertionError := by
    unfold sameVectorsRound
    dsimp only
    rw [same_vectors_twice (by norm_num) (fun _ _ => 1 / 2) 1 (by decide) fun _ _ => rfl]
    rfl
  unfold test_same_vectors
  rw [List.ofFn_succ]
  show ((sameVectorsRound _ >>= fun _ => _) >>= _) = _
  rw [h]
  rfl

/-- numbers in `[0, 1)` that meet the condition of `C203_partial` -/
example : ∃ draws : Fin 10 → VecDraw, (∀ t, Distinct 10 (draws t).v ∧ ∀ j i, 0 ≤ (draws t).v j i ∧ (draws t).v j i < 1) := by
  refine ⟨fun _ => ⟨fun j _ => j / 200, 1⟩, fun _ => ⟨fun i k hik => ⟨0, by norm_num, ?_⟩, fun j _ => ?_⟩⟩
  · have h1 : (1 : ℝ) ≤ |((i : ℕ) : ℝ) - ((k : ℕ) : ℝ)| := by
      have : (1 : ℤ) ≤ |((i : ℕ) : ℤ) - ((k : ℕ) : ℤ)| := Int.one_le_abs (sub_ne_zero.2 fun h => hik (Fin.ext (by exact_mod_cast h)))
      exact_mod_cast this
    have h2 : ((k : ℕ) : ℝ) ≤ 100 := by exact_mod_cast k.2.le
    have h0 : (0 : ℝ) ≤ ((k : ℕ) : ℝ) := Nat.cast_nonneg _
    show 1e-8 + 1e-5 * |((k : ℕ) : ℝ) / 200| < |((i : ℕ) : ℝ) / 200 - ((k : ℕ) : ℝ) / 200|
    rw [← sub_div, abs_div, abs_div, abs_of_nonneg h0, abs_of_pos (by norm_num : (0 : ℝ) < 200), lt_div_iff₀ (by norm_num)]
    norm_num
    linarith
  · have h2 : ((j : ℕ) : ℝ) < 100 := by exact_mod_cast j.2
    have h0 : (0 : ℝ) ≤ ((j : ℕ) : ℝ) := Nat.cast_nonneg _
    exact ⟨by positivity, by show ((j : ℕ) : ℝ) / 200 < 1; linarith⟩

end Verif.TestSuite
