import Verif.Proofs.Ocp

/- Matrices made of blocks of rows of different sizes: the rows of the `i`-th block start at `off ns i`, where `ns`
are the sizes of the blocks. -/
namespace Verif
open Finset Spec Dyn Control

/-- where the `i`-th block starts -/
def off (ns : List ℕ) (i : ℕ) : ℕ := (ns.take i).sum

@[simp] theorem off_zero (ns : List ℕ) : off ns 0 = 0 := by simp [off]
@[simp] theorem off_succ (n : ℕ) (ns : List ℕ) (i : ℕ) : off (n :: ns) (i + 1) = n + off ns i := by simp [off]

theorem off_next : ∀ (ns : List ℕ) (i : ℕ), i < ns.length → off ns (i + 1) = off ns i + ns.getD i 0
  | [], _, h => absurd h (by simp)
  | n :: ns, 0, _ => by simp
  | n :: ns, i + 1, h => by
    rw [off_succ, off_succ, off_next ns i (by simpa using h)]
    simp [add_assoc]

theorem off_add_lt : ∀ (ns : List ℕ) (i : ℕ), i < ns.length → off ns i + ns.getD i 0 ≤ ns.sum
  | [], _, h => absurd h (by simp)
  | n :: ns, 0, _ => by simp
  | n :: ns, i + 1, h => by
    have := off_add_lt ns i (by simpa using h)
    rw [off_succ, List.sum_cons]
    simp only [List.getD_cons_succ]
    omega

theorem off_replicate (n : ℕ) : ∀ (N i : ℕ), i ≤ N → off (List.replicate N n) i = n * i
  | _, 0, _ => by simp
  | 0, i + 1, h => absurd h (by omega)
  | N + 1, i + 1, h => by
    rw [List.replicate_succ, off_succ, off_replicate n N i (by omega)]
    ring

/-- a number below the sum of the sizes is in one of the blocks -/
theorem off_cover : ∀ (ns : List ℕ) (r : ℕ), r < ns.sum → ∃ i k, i < ns.length ∧ k < ns.getD i 0 ∧ r = off ns i + k
  | [], r, h => absurd h (by simp)
  | n :: ns, r, h => by
    by_cases hr : r < n
    · exact ⟨0, r, by simp, by simpa using hr, by simp⟩
    · obtain ⟨i, k, h1, h2, h3⟩ := off_cover ns (r - n) (by rw [List.sum_cons] at h; omega)
      exact ⟨i + 1, k, by simpa using h1, by simpa using h2, by rw [off_succ]; omega⟩

theorem forall_off (ns : List ℕ) (p : ℕ → Prop) :
    (∀ r < ns.sum, p r) ↔ ∀ i < ns.length, ∀ k < ns.getD i 0, p (off ns i + k) := by
  constructor
  · intro h i hi k hk
    exact h _ (by have := off_add_lt ns i hi; omega)
  · intro h r hr
    obtain ⟨i, k, h1, h2, rfl⟩ := off_cover ns r hr
    exact h i h1 k h2

/-- the blocks do not overlap -/
theorem off_inj : ∀ (ns : List ℕ) (i i' k k' : ℕ), i < ns.length → i' < ns.length → k < ns.getD i 0 → k' < ns.getD i' 0 →
    off ns i + k = off ns i' + k' → i = i' ∧ k = k'
  | [], _, _, _, _, h, _, _, _, _ => absurd h (by simp)
  | n :: ns, 0, 0, k, k', _, _, _, _, h => by simpa using h
  | n :: ns, 0, i' + 1, k, k', _, _, h1, _, h => by
    simp at h h1; omega
  | n :: ns, i + 1, 0, k, k', _, _, _, h1, h => by
    simp at h h1; omega
  | n :: ns, i + 1, i' + 1, k, k', h1, h2, h3, h4, h => by
    have := off_inj ns i i' k k' (by simpa using h1) (by simpa using h2) (by simpa using h3) (by simpa using h4)
      (by rw [off_succ, off_succ] at h; omega)
    omega

theorem vstack_off {n : ℕ} : ∀ {l : List (Mat ℝ)}, l ≠ [] → (∀ A ∈ l, A.nc = n) →
    ∃ M, np.vstack l = .ok M ∧ M.nr = (l.map (·.nr)).sum ∧ M.nc = n ∧
      ∀ i < l.length, ∀ k < (l.getD i mat0).nr, ∀ j, M.e (off (l.map (·.nr)) i + k) j = (l.getD i mat0).e k j
  | [], h, _ => absurd rfl h
  | [A], _, h => ⟨A, rfl, by simp, h A (by simp), fun i hi k hk j => by
      have : i = 0 := by simpa using hi
      subst this
      simp⟩
  | A :: B :: l, _, h => by
    obtain ⟨M, h1, h2, h3, h4⟩ := vstack_off (l := B :: l) (by simp) fun C hC => h C (by simp at hC ⊢; tauto)
    refine ⟨A.vapp M, ?_, ?_, h A (by simp), fun i hi k hk j => ?_⟩
    · show (np.vstack (B :: l) >>= fun C => np.vstack2 A C) = _
      rw [h1, Py.ok_bind]
      exact if_pos ((h A (by simp)).trans h3.symm)
    · show A.nr + M.nr = _
      rw [h2]; simp
    · cases i with
      | zero =>
        simp only [List.getD_cons_zero] at hk
        simp only [off_zero, zero_add, List.getD_cons_zero]
        rw [Mat.vapp_e_lt _ _ _ hk]
      | succ i =>
        simp only [List.getD_cons_succ] at hk ⊢
        rw [List.map_cons, off_succ, add_assoc, Mat.vapp_e_add, h4 i (by simpa using hi) k hk]

theorem vstack_row {n : ℕ} {l : List (Mat ℝ)} (hne : l ≠ []) (h : ∀ A ∈ l, A.nc = n) :
    ∃ M, np.vstack l = .ok M ∧ M.nr = (l.map (·.nr)).sum ∧ M.nc = n ∧
      ∀ i < l.length, ∀ k < (l.getD i mat0).nr, ∀ x, rowVal M (off (l.map (·.nr)) i + k) x = rowVal (l.getD i mat0) k x := by
  obtain ⟨M, h1, h2, h3, h4⟩ := vstack_off hne h
  refine ⟨M, h1, h2, h3, fun i hi k hk x => ?_⟩
  unfold rowVal
  rw [h3, ← h _ (getD_mem mat0 hi)]
  exact Finset.sum_congr rfl fun j _ => by rw [h4 i hi k hk]

theorem concat_off : ∀ l : List (Vec ℝ), (Vec.concat l).n = (l.map (·.n)).sum ∧
    ∀ i < l.length, ∀ k < (l.getD i vec0).n, (Vec.concat l).e (off (l.map (·.n)) i + k) = (l.getD i vec0).e k
  | [] => ⟨rfl, fun i hi => absurd hi (by simp)⟩
  | [v] => ⟨by simp [Vec.concat], fun i hi k hk => by
      have : i = 0 := by simpa using hi
      subst this
      simp [Vec.concat]⟩
  | v :: w :: l => by
    obtain ⟨h1, h2⟩ := concat_off (w :: l)
    have e : Vec.concat (v :: w :: l) = v.append (Vec.concat (w :: l)) := rfl
    rw [e]
    refine ⟨?_, fun i hi k hk => ?_⟩
    · show v.n + (Vec.concat (w :: l)).n = _
      rw [h1]; simp
    · cases i with
      | zero =>
        simp only [List.getD_cons_zero] at hk
        simp only [off_zero, zero_add, List.getD_cons_zero]
        rw [Vec.append_e_lt _ _ hk]
      | succ i =>
        simp only [List.getD_cons_succ] at hk ⊢
        rw [List.map_cons, off_succ, add_assoc, Vec.append_e_add, h2 i (by simpa using hi) k hk]

theorem bdiag_off : ∀ l : List (Mat ℝ), (Mat.bdiag l).nr = (l.map (·.nr)).sum ∧ (Mat.bdiag l).nc = (l.map (·.nc)).sum ∧
    ∀ i < l.length, ∀ k < (l.getD i mat0).nr, ∀ x, rowVal (Mat.bdiag l) (off (l.map (·.nr)) i + k) x
      = rowVal (l.getD i mat0) k (fun j => x (off (l.map (·.nc)) i + j))
  | [] => ⟨rfl, rfl, fun i hi => absurd hi (by simp)⟩
  | A :: l => by
    obtain ⟨h1, h2, h3⟩ := bdiag_off l
    have e : Mat.bdiag (A :: l) = A.bdiag2 (Mat.bdiag l) := rfl
    rw [e]
    refine ⟨?_, ?_, fun i hi k hk x => ?_⟩
    · show A.nr + (Mat.bdiag l).nr = _
      rw [h1]; simp
    · show A.nc + (Mat.bdiag l).nc = _
      rw [h2]; simp
    · cases i with
      | zero =>
        simp only [List.getD_cons_zero] at hk
        simp only [off_zero, zero_add, List.getD_cons_zero]
        rw [rowVal_bdiag2_lt _ _ hk]
      | succ i =>
        simp only [List.getD_cons_succ] at hk ⊢
        rw [List.map_cons, off_succ, add_assoc, rowVal_bdiag2_add, h3 i (by simpa using hi) k hk]
        refine rowVal_congr' k fun j _ => ?_
        rw [List.map_cons, off_succ, add_assoc]

end Verif
