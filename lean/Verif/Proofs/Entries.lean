import Verif.Proofs.Hybrid

/- Entries of the matrices of the mixed-integer program: they are those of the data. -/
namespace Verif
namespace Control
open Finset Spec Dyn

/-- all the entries of a matrix -/
def AllM (p : ℝ → Prop) (A : Mat ℝ) : Prop := ∀ i < A.nr, ∀ j < A.nc, p (A.e i j)
/-- all the entries of a vector -/
def AllV (p : ℝ → Prop) (v : Vec ℝ) : Prop := ∀ i < v.n, p (v.e i)

variable {p : ℝ → Prop}

theorem all_vapp {A B : Mat ℝ} (hA : AllM p A) (hB : AllM p B) (h : A.nc = B.nc) : AllM p (A.vapp B) := by
  refine forall_lt_add.2 ⟨fun i hi j hj => ?_, fun i hi j hj => ?_⟩
  · rw [Mat.vapp_e_lt _ _ _ hi]
    exact hA i hi j hj
  · rw [Mat.vapp_e_add]
    exact hB i hi j (h ▸ hj)

theorem all_vstack : ∀ {l : List (Mat ℝ)} {M : Mat ℝ}, np.vstack l = .ok M → (∀ A ∈ l, AllM p A) → AllM p M
  | [], _, h, _ => by cases h
  | [A], _, h, hl => by cases h; exact hl A (by simp)
  | A :: B :: l, M, h, hl => by
    obtain ⟨C, h1, h2⟩ := Py.bind_eq_ok (show (np.vstack (B :: l) >>= fun C => np.vstack2 A C) = .ok M from h)
    have := all_vstack h1 fun D hD => hl D (by simp at hD ⊢; tauto)
    unfold np.vstack2 at h2
    split_ifs at h2 with hc
    cases h2
    exact all_vapp (hl A (by simp)) this hc

theorem all_append {v w : Vec ℝ} (hv : AllV p v) (hw : AllV p w) : AllV p (v.append w) := by
  refine forall_lt_add.2 ⟨fun j hj => ?_, fun j hj => ?_⟩
  · rw [Vec.append_e_lt _ _ hj]
    exact hv j hj
  · rw [Vec.append_e_add]
    exact hw j hj

theorem all_concat : ∀ {l : List (Vec ℝ)}, (∀ v ∈ l, AllV p v) → AllV p (Vec.concat l)
  | [], _ => fun i hi => absurd hi (Nat.not_lt_zero _)
  | [v], h => h v (by simp)
  | v :: w :: l, h => all_append (h v (by simp)) (all_concat fun x hx => h x (by simp at hx ⊢; tauto))

theorem all_concatenate {l : List (Vec ℝ)} {v : Vec ℝ} (h : np.concatenate l = .ok v) (hl : ∀ v ∈ l, AllV p v) : AllV p v := by
  unfold np.concatenate at h
  split_ifs at h
  cases h
  exact all_concat hl

theorem all_bdiag2 (h0 : p 0) {A B : Mat ℝ} (hA : AllM p A) (hB : AllM p B) : AllM p (A.bdiag2 B) := by
  intro i hi j hj
  show p (if i < A.nr then (if j < A.nc then A.e i j else 0) else (if j < A.nc then 0 else B.e (i - A.nr) (j - A.nc)))
  have hi' : i < A.nr + B.nr := hi
  have hj' : j < A.nc + B.nc := hj
  split_ifs
  · exact hA i ‹_› j ‹_›
  · exact h0
  · exact h0
  · exact hB _ (by omega) _ (by omega)

theorem all_bdiag (h0 : p 0) : ∀ {l : List (Mat ℝ)}, (∀ A ∈ l, AllM p A) → AllM p (Mat.bdiag l)
  | [], _ => fun i hi => absurd hi (Nat.not_lt_zero _)
  | A :: l, h => all_bdiag2 h0 (h A (by simp)) (all_bdiag h0 fun B hB => h B (by simp [hB]))

theorem all_block_diag (h0 : p 0) {l : List (Mat ℝ)} (h : ∀ A ∈ l, AllM p A) : AllM p (np.block_diag l) := by
  unfold np.block_diag
  split_ifs
  · exact fun i _ j hj => absurd hj (Nat.not_lt_zero _)
  · exact all_bdiag h0 h

theorem all_zeros (h0 : p 0) (m n : ℕ) : AllM p (Mat.zeros m n) := fun _ _ _ _ => h0
theorem all_zerosV (h0 : p 0) (n : ℕ) : AllV p (Vec.zeros n) := fun _ _ => h0
theorem all_ones (h1 : p 1) (m n : ℕ) : AllM p (Mat.ones m n) := fun _ _ _ _ => h1

theorem all_eye (h0 : p 0) (h1 : p 1) (n : ℕ) : AllM p (Mat.eye n) := fun i _ j _ => by
  show p (if i = j then 1 else 0)
  split_ifs
  · exact h1
  · exact h0

theorem all_neg (hn : ∀ a, p a → p (-a)) {A : Mat ℝ} (h : AllM p A) : AllM p A.neg := fun i hi j hj => hn _ (h i hi j hj)
theorem all_negV (hn : ∀ a, p a → p (-a)) {v : Vec ℝ} (h : AllV p v) : AllV p v.neg := fun i hi => hn _ (h i hi)

theorem all_colsTo {A : Mat ℝ} (h : AllM p A) (n : ℕ) : AllM p (A.colsTo n) := fun i hi j hj =>
  h i hi j (lt_of_lt_of_le hj (Nat.min_le_right _ _))

theorem all_colsFrom {A : Mat ℝ} (h : AllM p A) (n : ℕ) : AllM p (A.colsFrom n) := fun i hi j hj => by
  have hj : j < A.nc - n := hj
  exact h i hi (n + j) (by omega)

theorem mem_replicate_append {α : Type} {N : ℕ} {a b c : α} (h : c ∈ List.replicate N a ++ [b]) : c = a ∨ c = b := by
  simp only [List.mem_append, List.mem_replicate, List.mem_singleton] at h
  tauto

theorem all_setBlock {A B : Mat ℝ} (hA : AllM p A) (hB : AllM p B) (r c : ℕ) : AllM p (A.setBlock r c B) := by
  intro i hi j hj
  show p (if r ≤ i ∧ i < r + B.nr ∧ c ≤ j ∧ j < c + B.nc then B.e (i - r) (j - c) else A.e i j)
  split_ifs with h
  · exact hB _ (by omega) _ (by omega)
  · exact hA i hi j hj

theorem listGet_mem {α : Type} {l : List α} {i : ℕ} {a : α} (h : np.listGet l i = .ok a) : a ∈ l := by
  unfold np.listGet at h
  cases e : l[i]? with
  | none => rw [e] at h; cases h
  | some b =>
    rw [e] at h
    cases h
    exact List.mem_of_getElem? e

theorem all_setBigM {M : List (List (Mat ℝ))} (hM : ∀ r ∈ M, ∀ A ∈ r, AllM p A) {n : List ℕ} :
    ∀ (l : List (ℕ × ℕ)) {B B' : Mat ℝ}, AllM p B → l.foldlM (setBigM M n) B = .ok B' → AllM p B'
  | [], _, _, hB, h => by cases h; exact hB
  | q :: l, B, B', hB, h => by
    obtain ⟨B1, h1, h2⟩ := Py.bind_eq_ok (show (setBigM M n B q >>= fun s => l.foldlM (setBigM M n) s) = .ok B' from h)
    refine all_setBigM hM l ?_ h2
    unfold setBigM at h1
    split_ifs at h1
    · obtain ⟨r, k1, h1⟩ := Py.bind_eq_ok h1
      obtain ⟨m, k2, h1⟩ := Py.bind_eq_ok h1
      unfold assignBlock at h1
      split_ifs at h1
      cases h1
      exact all_setBlock hB (hM r (listGet_mem k1) m (listGet_mem k2)) _ _
    · cases h1
      exact hB

theorem all_bigM {M : List (List (Mat ℝ))} (h0 : p 0) (hM : ∀ r ∈ M, ∀ A ∈ r, AllM p A) {B : Mat ℝ} (h : bigM_matrices M = .ok B) : AllM p B := by
  unfold bigM_matrices at h
  obtain ⟨n, -, h⟩ := Py.bind_eq_ok h
  exact all_setBigM hM _ (all_zeros h0 _ _) h

theorem all_diagonal {M : List (List (Mat ℝ))} (hM : ∀ r ∈ M, ∀ A ∈ r, AllM p A) {s : ℕ} {a : List (Mat ℝ)} (h : diagonal M s = .ok a) :
    ∀ A ∈ a, AllM p A := by
  intro A hA
  unfold diagonal at h
  obtain ⟨h1, h2⟩ := mapM_ok_iff h
  obtain ⟨i, hi, rfl⟩ := List.getElem_of_mem hA
  have := h2 i (by rw [← h1]; exact hi) hi
  obtain ⟨r, k1, k2⟩ := Py.bind_eq_ok this
  exact hM r (listGet_mem k1) _ (listGet_mem k2)

end Control
end Verif
