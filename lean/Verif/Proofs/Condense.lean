import Verif.Model.Systems
import Verif.Spec.Dyn
import Verif.Spec.Geom
import Verif.Proofs.Gurobi
import Mathlib.Data.List.GetD

/- Lemmas about `condense_pwa_system` of `/repo/pympc/dynamics/discrete_time_systems.py`. -/
namespace Verif
open Finset Spec

/-! ### stacked blocks -/

theorem blk_iff {n i i' r : ℕ} (hr : r < n) : (n * i ≤ n * i' + r ∧ n * i' + r < n * i + n) ↔ i' = i := by
  constructor
  · rintro ⟨h1, h2⟩
    rcases lt_trichotomy i' i with h | h | h
    · have := Nat.mul_le_mul_left n h
      rw [Nat.mul_succ] at this
      omega
    · exact h
    · have := Nat.mul_le_mul_left n h
      rw [Nat.mul_succ] at this
      omega
  · rintro rfl; omega

theorem sum_range_blocks {K : Type} [AddCommMonoid K] (m N : ℕ) (f : ℕ → K) :
    ∑ k ∈ range (m * N), f k = ∑ j ∈ range N, ∑ s ∈ range m, f (m * j + s) := by
  induction N with
  | zero => simp
  | succ N ih => rw [Nat.mul_succ, Finset.sum_range_add, ih, Finset.sum_range_succ]

/-- the default matrix -/
def mat0 : Mat ℝ := ⟨0, 0, fun _ _ => 0⟩

instance : Nonempty (Mat ℝ) := ⟨mat0⟩

theorem vstack_blocks {m n : ℕ} : ∀ {l : List (Mat ℝ)}, l ≠ [] → (∀ A ∈ l, A.nr = m ∧ A.nc = n) →
    ∃ M, np.vstack l = .ok M ∧ M.nr = m * l.length ∧ M.nc = n ∧
      ∀ t < l.length, ∀ i < m, ∀ j, M.e (m * t + i) j = (l.getD t mat0).e i j
  | [], h, _ => absurd rfl h
  | [A], _, h => ⟨A, rfl, by simpa using (h A (by simp)).1, (h A (by simp)).2, fun t ht i hi j => by
      have : t = 0 := by simpa using ht
      subst this
      simp⟩
  | A :: B :: l, _, h => by
    obtain ⟨M, h1, h2, h3, h4⟩ := vstack_blocks (l := B :: l) (by simp) (fun C hC => h C (by simp at hC ⊢; tauto))
    obtain ⟨hA1, hA2⟩ := h A (by simp)
    have e1 : np.vstack2 A M = .ok (A.vapp M) := if_pos (by rw [hA2, h3])
    refine ⟨A.vapp M, ?_, ?_, ?_, ?_⟩
    · show (np.vstack (B :: l) >>= fun C => np.vstack2 A C) = _
      rw [h1]; exact e1
    · simp [hA1, h2]; ring
    · simp [hA2]
    · intro t ht i hi j
      cases t with
      | zero =>
        rw [Nat.mul_zero, Nat.zero_add, Mat.vapp_e_lt _ _ _ (by omega)]
        rfl
      | succ t =>
        rw [show m * (t + 1) + i = A.nr + (m * t + i) by rw [hA1]; ring, Mat.vapp_e_add]
        exact h4 t (by simpa using ht) i hi j

/-! ### products of matrices -/

/-- the product of the matrices of the list, applied to `x` -/
def act : List (Mat ℝ) → (ℕ → ℝ) → ℕ → ℝ
  | [], x => x
  | A :: l, x => fun i => rowVal A i (act l x)

theorem rowVal_mul {A B : Mat ℝ} (h : A.nc = B.nr) (i : ℕ) (x : ℕ → ℝ) :
    rowVal (A.mul B) i x = rowVal A i (fun k => rowVal B k x) := by
  unfold rowVal
  simp only [Mat.mul_nc, Mat.mul_e, Finset.sum_mul, Finset.mul_sum]
  rw [Finset.sum_comm]
  exact Finset.sum_congr rfl fun k _ => Finset.sum_congr rfl fun j _ => by ring

theorem rowVal_congr' {A : Mat ℝ} {x y : ℕ → ℝ} (i : ℕ) (h : ∀ j < A.nc, x j = y j) : rowVal A i x = rowVal A i y :=
  Finset.sum_congr rfl fun j hj => by rw [h j (mem_range.1 hj)]

theorem rowVal_add' (A : Mat ℝ) (x y : ℕ → ℝ) (i : ℕ) :
    rowVal A i (fun j => x j + y j) = rowVal A i x + rowVal A i y := by
  simp only [rowVal, mul_add, Finset.sum_add_distrib]

theorem rowVal_sum {ι : Type} (A : Mat ℝ) (s : Finset ι) (f : ι → ℕ → ℝ) (i : ℕ) :
    rowVal A i (fun j => ∑ k ∈ s, f k j) = ∑ k ∈ s, rowVal A i (f k) := by
  simp only [rowVal, Finset.mul_sum]
  exact Finset.sum_comm

namespace Dyn

theorem foldl_dot {n : ℕ} : ∀ (l : List (Mat ℝ)) (M0 : Mat ℝ), (∀ A ∈ l, A.nr = n ∧ A.nc = n) → M0.nc = n →
    ∃ M, l.foldlM np.dotMM M0 = .ok M ∧ M.nr = M0.nr ∧ M.nc = n ∧ ∀ i x, rowVal M i x = rowVal M0 i (act l x)
  | [], M0, _, h0 => ⟨M0, rfl, rfl, h0, fun _ _ => rfl⟩
  | A :: l, M0, h, h0 => by
    obtain ⟨hA1, hA2⟩ := h A (by simp)
    obtain ⟨M, h1, h2, h3, h4⟩ := foldl_dot l (M0.mul A) (fun B hB => h B (by simp [hB])) hA2
    refine ⟨M, ?_, h2, h3, fun i x => ?_⟩
    · rw [List.foldlM_cons, show np.dotMM M0 A = .ok (M0.mul A) from if_pos (by omega)]
      exact h1
    · rw [h4, rowVal_mul (by omega)]
      rfl

theorem productory_ok {n : ℕ} {l : List (Mat ℝ)} (hl : l ≠ []) (h : ∀ A ∈ l, A.nr = n ∧ A.nc = n) :
    ∃ M, productory l = .ok M ∧ M.nr = n ∧ M.nc = n ∧ ∀ i x, rowVal M i x = act l x i := by
  cases l with
  | nil => exact absurd rfl hl
  | cons A l =>
    obtain ⟨M, h1, h2, h3, h4⟩ := foldl_dot l A (fun B hB => h B (by simp [hB])) (h A (by simp)).2
    exact ⟨M, h1, h2.trans (h A (by simp)).1, h3, h4⟩

theorem backSlice_mem {l : List (Mat ℝ)} {i j : ℕ} {A : Mat ℝ} (h : A ∈ backSlice l i j) : A ∈ l := by
  unfold backSlice at h
  exact List.mem_of_mem_take (List.mem_of_mem_drop (List.mem_reverse.1 h))

theorem backSlice_self (l : List (Mat ℝ)) (i : ℕ) : backSlice l i i = [] := by
  unfold backSlice
  simp

theorem backSlice_succ {l : List (Mat ℝ)} {i j : ℕ} (hj : j ≤ i) (hi : i + 1 < l.length) :
    backSlice l (i + 1) j = l.getD (i + 1) mat0 :: backSlice l i j := by
  unfold backSlice
  rw [List.take_add_one, List.drop_append_of_le_length (by rw [List.length_take]; omega)]
  rw [List.getD_eq_getElem _ _ hi, List.getElem?_eq_getElem hi]
  simp

theorem take_reverse_succ {l : List (Mat ℝ)} {i : ℕ} (hi : i < l.length) :
    (l.take (i + 1)).reverse = l.getD i mat0 :: (l.take i).reverse := by
  rw [List.take_add_one, List.getD_eq_getElem _ _ hi, List.getElem?_eq_getElem hi]
  simp

theorem backSlice_ne {l : List (Mat ℝ)} {i j : ℕ} (hj : j < i) (hi : i < l.length) : backSlice l i j ≠ [] := by
  obtain ⟨k, rfl⟩ : ∃ k, i = k + 1 := ⟨i - 1, by omega⟩
  rw [backSlice_succ (by omega) hi]
  simp

/-- the matrices, input maps and offsets of a mode sequence have the sizes of the system -/
structure SeqShape (nx nu N : ℕ) (As Bs : List (Mat ℝ)) (cs : List (Vec ℝ)) : Prop where
  lA : As.length = N
  lB : Bs.length = N
  lc : cs.length = N
  hA : ∀ A ∈ As, A.nr = nx ∧ A.nc = nx
  hB : ∀ B ∈ Bs, B.nr = nx ∧ B.nc = nu
  hc : ∀ c ∈ cs, c.n = nx

variable {nx nu N : ℕ} {As Bs : List (Mat ℝ)} {cs : List (Vec ℝ)}

/-- default vector -/
def vec0 : Vec ℝ := ⟨0, fun _ => 0⟩

theorem getD_mem {α : Type} {l : List α} {i : ℕ} (d : α) (h : i < l.length) : l.getD i d ∈ l := by
  rw [List.getD_eq_getElem _ _ h]; exact List.getElem_mem h

theorem listGet_ok {α : Type} {l : List α} {i : ℕ} (d : α) (h : i < l.length) : np.listGet l i = .ok (l.getD i d) := by
  unfold np.listGet
  rw [List.getD_eq_getElem _ _ h, List.getElem?_eq_getElem h]

/-- the explicit formula of the trajectory -/
theorem traj_formula (hS : SeqShape nx nu N As Bs cs) (x0 : ℕ → ℝ) (u : ℕ → ℕ → ℝ) : ∀ t < N, ∀ i < nx,
    traj (fun t => As.getD t mat0) (fun t => Bs.getD t mat0) (fun t => cs.getD t vec0) x0 u (t + 1) i
      = act (As.take (t + 1)).reverse x0 i
        + ∑ j ∈ range (t + 1), act (backSlice As t j) (fun k => rowVal (Bs.getD j mat0) k (u j) + (cs.getD j vec0).e k) i := by
  intro t
  induction t with
  | zero =>
    intro ht i hi
    rw [Finset.sum_range_one, backSlice_self, take_reverse_succ (by rw [hS.lA]; omega)]
    simp only [traj, affine, act, List.take_zero, List.reverse_nil]
    rw [add_assoc]
    rfl
  | succ t ih =>
    intro ht i hi
    have hA := hS.hA _ (getD_mem (i := t + 1) mat0 (by rw [hS.lA]; omega))
    rw [Finset.sum_range_succ, backSlice_self, take_reverse_succ (by rw [hS.lA]; omega)]
    have e1 : ∀ j ∈ range (t + 1), act (backSlice As (t + 1) j) (fun k => rowVal (Bs.getD j mat0) k (u j) + (cs.getD j vec0).e k) i
        = rowVal (As.getD (t + 1) mat0) i (act (backSlice As t j) (fun k => rowVal (Bs.getD j mat0) k (u j) + (cs.getD j vec0).e k)) := by
      intro j hj
      have := mem_range.1 hj
      rw [backSlice_succ (by omega) (by rw [hS.lA]; omega)]
      rfl
    rw [Finset.sum_congr rfl e1, ← rowVal_sum]
    have e2 : rowVal (As.getD (t + 1) mat0) i (traj (fun t => As.getD t mat0) (fun t => Bs.getD t mat0) (fun t => cs.getD t vec0) x0 u (t + 1))
        = rowVal (As.getD (t + 1) mat0) i (fun k => act (As.take (t + 1)).reverse x0 k
          + ∑ j ∈ range (t + 1), act (backSlice As t j) (fun k => rowVal (Bs.getD j mat0) k (u j) + (cs.getD j vec0).e k) k) :=
      rowVal_congr' i fun j hj => ih (by omega) j (by omega)
    rw [rowVal_add'] at e2
    rw [traj]
    unfold affine
    have e3 : ∑ j ∈ range (As.getD (t + 1) mat0).nc, (As.getD (t + 1) mat0).e i j *
        traj (fun t => As.getD t mat0) (fun t => Bs.getD t mat0) (fun t => cs.getD t vec0) x0 u (t + 1) j = _ := e2
    rw [e3]
    simp only [act]
    have e4 : ∑ j ∈ range (Bs.getD (t + 1) mat0).nc, (Bs.getD (t + 1) mat0).e i j * u (t + 1) j
      = rowVal (Bs.getD (t + 1) mat0) i (u (t + 1)) := rfl
    rw [e4]
    ring

/-! ### the free evolution -/

theorem free_ok (hS : SeqShape nx nu N As Bs cs) (hN : 0 < N) :
    ∃ F A_bar, ((List.range N).mapM fun i => productory (As.take (i + 1)).reverse) = .ok F ∧
      (np.vstack F >>= fun A => np.vstack [Mat.eye nx, A]) = .ok A_bar ∧
      A_bar.nr = nx * (N + 1) ∧ A_bar.nc = nx ∧
      (∀ x : ℕ → ℝ, ∀ i < nx, rowVal A_bar i x = x i) ∧
      ∀ x : ℕ → ℝ, ∀ t < N, ∀ i < nx, rowVal A_bar (nx * (t + 1) + i) x = act (As.take (t + 1)).reverse x i := by
  have hp : ∀ i < N, ∃ M, productory (As.take (i + 1)).reverse = .ok M ∧ M.nr = nx ∧ M.nc = nx ∧
      ∀ r x, rowVal M r x = act (As.take (i + 1)).reverse x r := fun i hi =>
    productory_ok (by rw [take_reverse_succ (by rw [hS.lA]; exact hi)]; simp)
      (fun A hA => hS.hA A (List.mem_of_mem_take (List.mem_reverse.1 hA)))
  choose! g hg1 hg2 hg3 hg4 using hp
  have hF : ((List.range N).mapM fun i => productory (As.take (i + 1)).reverse) = .ok ((List.range N).map g) :=
    mapM_ok fun i hi => hg1 i (List.mem_range.1 hi)
  obtain ⟨M, m1, m2, m3, m4⟩ := vstack_blocks (m := nx) (n := nx) (l := (List.range N).map g) (by simp; omega) (by
    intro A hA
    obtain ⟨i, hi, rfl⟩ := List.mem_map.1 hA
    exact ⟨hg2 i (List.mem_range.1 hi), hg3 i (List.mem_range.1 hi)⟩)
  have m2' : M.nr = nx * N := by simpa using m2
  have e1 : np.vstack [Mat.eye nx, M] = .ok ((Mat.eye nx).vapp M) := if_pos (by simp [m3])
  refine ⟨_, (Mat.eye nx).vapp M, hF, by rw [m1]; exact e1, by simp [m2']; ring, rfl, fun x i hi => ?_, fun x t ht i hi => ?_⟩
  · unfold rowVal
    simp only [Mat.vapp_nc, Mat.eye_nc]
    have : ∀ j ∈ range nx, ((Mat.eye nx).vapp M).e i j * x j = if i = j then x j else 0 := fun j _ => by
      rw [Mat.vapp_e_lt _ _ _ (by simpa using hi), Mat.eye_e]; simp
    rw [Finset.sum_congr rfl this, Finset.sum_ite_eq, if_pos (mem_range.2 hi)]
  · rw [← hg4 t ht i x]
    unfold rowVal
    simp only [Mat.vapp_nc, Mat.eye_nc, hg3 t ht]
    refine Finset.sum_congr rfl fun j _ => ?_
    have : ((Mat.eye nx).vapp M).e (nx * (t + 1) + i) j = M.e (nx * t + i) j := by
      rw [show nx * (t + 1) + i = (Mat.eye nx : Mat ℝ).nr + (nx * t + i) by simp; ring, Mat.vapp_e_add]
    rw [this, m4 t (by simpa using ht) i hi j]
    congr 2
    rw [List.getD_eq_getElem _ _ (by simpa using ht)]
    simp

/-! ### the forced evolution -/

theorem assign_ok {B M : Mat ℝ} {r c m n : ℕ} (h1 : M.nr = m) (h2 : M.nc = n) (h3 : r + m ≤ B.nr) (h4 : c + n ≤ B.nc) :
    assignBlock B r c m n M = .ok (B.setBlock r c M) := if_pos ⟨h1, h2, h3, h4⟩

theorem setBlock_blk {B M : Mat ℝ} {m n i j : ℕ} (h1 : M.nr = m) (h2 : M.nc = n) (i' j' : ℕ) {r s : ℕ} (hr : r < m)
    (hs : s < n) : (B.setBlock (m * i) (n * j) M).e (m * i' + r) (n * j' + s)
      = if i' = i ∧ j' = j then M.e r s else B.e (m * i' + r) (n * j' + s) := by
  unfold Mat.setBlock
  simp only [h1, h2]
  have e : (m * i ≤ m * i' + r ∧ m * i' + r < m * i + m ∧ n * j ≤ n * j' + s ∧ n * j' + s < n * j + n) ↔ (i' = i ∧ j' = j) := by
    rw [← blk_iff (i := i) hr, ← blk_iff (i := j) hs]
    tauto
  by_cases h : i' = i ∧ j' = j
  · rw [if_pos (e.2 h), if_pos h]
    obtain ⟨rfl, rfl⟩ := h
    congr 1 <;> omega
  · rw [if_neg (fun h' => h (e.1 h')), if_neg h]

theorem blk_le {m i N : ℕ} (h : i < N) : m * i + m ≤ m * N := by
  have := Nat.mul_le_mul_left m h
  rwa [Nat.mul_succ] at this

/-- one row of blocks -/
theorem forcedRow_ok (hS : SeqShape nx nu N As Bs cs) {B : Mat ℝ} (hB1 : B.nr = nx * N) (hB2 : B.nc = nu * N)
    {i : ℕ} (hi : i < N) :
    ∃ B', forcedRow nx nu As Bs B i = .ok B' ∧ B'.nr = nx * N ∧ B'.nc = nu * N ∧
      (∀ i' j r s, i' ≠ i → r < nx → s < nu → B'.e (nx * i' + r) (nu * j + s) = B.e (nx * i' + r) (nu * j + s)) ∧
      (∀ j r s, i < j → r < nx → s < nu → B'.e (nx * i + r) (nu * j + s) = B.e (nx * i + r) (nu * j + s)) ∧
      ∀ j ≤ i, ∀ r < nx, ∀ v : ℕ → ℝ, ∑ s ∈ range nu, B'.e (nx * i + r) (nu * j + s) * v s
        = act (backSlice As i j) (fun k => rowVal (Bs.getD j mat0) k v) r := by
  have hp : ∀ j < i, ∃ M, productory (backSlice As i j) = .ok M ∧ M.nr = nx ∧ M.nc = nx ∧
      ∀ r x, rowVal M r x = act (backSlice As i j) x r := fun j hj =>
    productory_ok (backSlice_ne hj (by rw [hS.lA]; exact hi)) fun A hA => hS.hA A (backSlice_mem hA)
  choose! M hM1 hM2 hM3 hM4 using hp
  have hBj : ∀ j < N, (Bs.getD j mat0).nr = nx ∧ (Bs.getD j mat0).nc = nu := fun j hj =>
    hS.hB _ (getD_mem _ (by rw [hS.lB]; exact hj))
  have inner : ∀ k ≤ i, ∃ B', ((List.range k).foldlM (fun B j => do
      let M ← productory (backSlice As i j)
      let Bj ← np.listGet Bs j
      let MB ← np.dotMM M Bj
      assignBlock B (nx * i) (nu * j) nx nu MB) B) = .ok B' ∧ B'.nr = nx * N ∧ B'.nc = nu * N ∧
      ∀ i' j r s, r < nx → s < nu → B'.e (nx * i' + r) (nu * j + s)
        = if i' = i ∧ j < k then ((M j).mul (Bs.getD j mat0)).e r s else B.e (nx * i' + r) (nu * j + s) := by
    intro k
    induction k with
    | zero => intro _; exact ⟨B, rfl, hB1, hB2, fun i' j r s _ _ => by simp⟩
    | succ k ih =>
      intro hk
      obtain ⟨B', h1, h2, h3, h4⟩ := ih (by omega)
      have d1 : np.dotMM (M k) (Bs.getD k mat0) = .ok ((M k).mul (Bs.getD k mat0)) :=
        if_pos (by rw [hM3 k (by omega), (hBj k (by omega)).1])
      have d2 : ((M k).mul (Bs.getD k mat0)).nr = nx := hM2 k (by omega)
      have d3 : ((M k).mul (Bs.getD k mat0)).nc = nu := (hBj k (by omega)).2
      refine ⟨B'.setBlock (nx * i) (nu * k) ((M k).mul (Bs.getD k mat0)), ?_, h2, h3, fun i' j r s hr hs => ?_⟩
      · rw [List.range_succ, List.foldlM_append, h1, Py.ok_bind, List.foldlM_cons, hM1 k (by omega),
          Py.ok_bind, listGet_ok mat0 (by rw [hS.lB]; omega), Py.ok_bind, d1, Py.ok_bind,
          assign_ok d2 d3 (by rw [h2]; exact blk_le hi) (by rw [h3]; exact blk_le (by omega))]
        rfl
      · rw [setBlock_blk d2 d3 i' j hr hs, h4 i' j r s hr hs]
        by_cases e1 : i' = i
        · by_cases e2 : j = k
          · subst e2; rw [if_pos ⟨e1, rfl⟩, if_pos ⟨e1, by omega⟩]
          · rw [if_neg (by tauto)]
            by_cases e3 : j < k
            · rw [if_pos ⟨e1, e3⟩, if_pos ⟨e1, by omega⟩]
            · rw [if_neg (by tauto), if_neg (by rintro ⟨-, h⟩; omega)]
        · rw [if_neg (by tauto), if_neg (by tauto), if_neg (by tauto)]
  obtain ⟨B', h1, h2, h3, h4⟩ := inner i le_rfl
  obtain ⟨k1, k2⟩ := hBj i hi
  refine ⟨B'.setBlock (nx * i) (nu * i) (Bs.getD i mat0), ?_, h2, h3, ?_, ?_, ?_⟩
  · unfold forcedRow
    rw [h1, Py.ok_bind, listGet_ok mat0 (by rw [hS.lB]; omega), Py.ok_bind,
      assign_ok k1 k2 (by rw [h2]; exact blk_le hi) (by rw [h3]; exact blk_le hi)]
  · intro i' j r s hne hr hs
    rw [setBlock_blk k1 k2 i' j hr hs, if_neg (by tauto), h4 i' j r s hr hs, if_neg (by tauto)]
  · intro j r s hij hr hs
    rw [setBlock_blk k1 k2 i j hr hs, if_neg (by rintro ⟨-, h⟩; omega), h4 i j r s hr hs, if_neg (by rintro ⟨-, h⟩; omega)]
  · intro j hj r hr v
    rcases hj.lt_or_eq with hlt | rfl
    · have : ∀ s ∈ range nu, (B'.setBlock (nx * i) (nu * i) (Bs.getD i mat0)).e (nx * i + r) (nu * j + s) * v s
          = ((M j).mul (Bs.getD j mat0)).e r s * v s := by
        intro s hs
        have hs := mem_range.1 hs
        rw [setBlock_blk k1 k2 i j hr hs, if_neg (by rintro ⟨-, h⟩; omega), h4 i j r s hr hs, if_pos ⟨rfl, hlt⟩]
      rw [Finset.sum_congr rfl this, ← hM4 j hlt]
      have hm := rowVal_mul (A := M j) (B := Bs.getD j mat0) (by rw [hM3 j hlt, (hBj j (by omega)).1]) r v
      rw [← hm]
      unfold rowVal
      rw [Mat.mul_nc, (hBj j (by omega)).2]
    · rw [backSlice_self]
      show _ = rowVal (Bs.getD j mat0) r v
      unfold rowVal
      rw [(hBj j hi).2]
      refine Finset.sum_congr rfl fun s hs => ?_
      rw [setBlock_blk k1 k2 j j hr (mem_range.1 hs), if_pos ⟨rfl, rfl⟩]

theorem forced_ok (hS : SeqShape nx nu N As Bs cs) :
    ∃ B, (List.range N).foldlM (forcedRow nx nu As Bs) (Mat.zeros (nx * N) (nu * N)) = .ok B ∧
      B.nr = nx * N ∧ B.nc = nu * N ∧
      ∀ i < N, ∀ r < nx, ∀ v : ℕ → ℝ, rowVal B (nx * i + r) v
        = ∑ j ∈ range (i + 1), act (backSlice As i j) (fun k => rowVal (Bs.getD j mat0) k (fun s => v (nu * j + s))) r := by
  have main : ∀ k ≤ N, ∃ B, (List.range k).foldlM (forcedRow nx nu As Bs) (Mat.zeros (nx * N) (nu * N)) = .ok B ∧
      B.nr = nx * N ∧ B.nc = nu * N ∧
      (∀ i j r s, k ≤ i → r < nx → s < nu → B.e (nx * i + r) (nu * j + s) = 0) ∧
      (∀ i j r s, i < j → r < nx → s < nu → B.e (nx * i + r) (nu * j + s) = 0) ∧
      ∀ i < k, ∀ j ≤ i, ∀ r < nx, ∀ v : ℕ → ℝ, ∑ s ∈ range nu, B.e (nx * i + r) (nu * j + s) * v s
        = act (backSlice As i j) (fun k => rowVal (Bs.getD j mat0) k v) r := by
    intro k
    induction k with
    | zero => intro _; exact ⟨_, rfl, rfl, rfl, fun _ _ _ _ _ _ _ => rfl, fun _ _ _ _ _ _ _ => rfl, fun i hi => absurd hi (by omega)⟩
    | succ k ih =>
      intro hk
      obtain ⟨B, h1, h2, h3, h4, h5, h6⟩ := ih (by omega)
      obtain ⟨B', g1, g2, g3, g4, g5, g6⟩ := forcedRow_ok hS h2 h3 (i := k) (by omega)
      refine ⟨B', ?_, g2, g3, ?_, ?_, ?_⟩
      · rw [List.range_succ, List.foldlM_append, h1, Py.ok_bind, List.foldlM_cons, g1]
        rfl
      · intro i j r s hi hr hs
        rw [g4 i j r s (by omega) hr hs]
        exact h4 i j r s (by omega) hr hs
      · intro i j r s hij hr hs
        by_cases e : i = k
        · subst e
          rw [g5 j r s hij hr hs]
          exact h5 i j r s hij hr hs
        · rw [g4 i j r s e hr hs]
          exact h5 i j r s hij hr hs
      · intro i hi j hj r hr v
        by_cases e : i = k
        · subst e
          exact g6 j hj r hr v
        · rw [← h6 i (by omega) j hj r hr v]
          exact Finset.sum_congr rfl fun s hs => by rw [g4 i j r s e hr (mem_range.1 hs)]
  obtain ⟨B, h1, h2, h3, -, h5, h6⟩ := main N le_rfl
  refine ⟨B, h1, h2, h3, fun i hi r hr v => ?_⟩
  unfold rowVal
  rw [h3, sum_range_blocks]
  have hsplit : range N = range (i + 1) ∪ (range N \ range (i + 1)) := by
    rw [Finset.union_sdiff_of_subset]
    exact Finset.range_subset_range.2 (by omega)
  rw [hsplit, Finset.sum_union Finset.disjoint_sdiff]
  have z : ∑ j ∈ range N \ range (i + 1), ∑ s ∈ range nu, B.e (nx * i + r) (nu * j + s) * v (nu * j + s) = 0 := by
    refine Finset.sum_eq_zero fun j hj => Finset.sum_eq_zero fun s hs => ?_
    rw [Finset.mem_sdiff, mem_range, mem_range] at hj
    rw [h5 i j r s (by omega) hr (mem_range.1 hs), zero_mul]
  rw [z, add_zero]
  exact Finset.sum_congr rfl fun j hj => h6 i hi j (by have := mem_range.1 hj; omega) r hr _

/-! ### the offsets -/

theorem foldl_add {n : ℕ} : ∀ (l : List (Vec ℝ)) (v : Vec ℝ), (∀ w ∈ l, w.n = n) → v.n = n →
    ∃ s, l.foldlM np.addV v = .ok s ∧ s.n = n ∧ ∀ i, s.e i = v.e i + (l.map fun w => w.e i).sum
  | [], v, _, h0 => ⟨v, rfl, h0, fun i => by simp⟩
  | w :: l, v, h, h0 => by
    obtain ⟨s, h1, h2, h3⟩ := foldl_add l (v.add w) (fun w' hw => h w' (by simp [hw])) h0
    refine ⟨s, ?_, h2, fun i => ?_⟩
    · rw [List.foldlM_cons, show np.addV v w = .ok (v.add w) from if_pos (by rw [h0, h w (by simp)])]
      exact h1
    · rw [h3]
      simp only [List.map_cons, List.sum_cons, Vec.add_e]
      ring

theorem sum_map_range (f : ℕ → ℝ) (k : ℕ) : ((List.range k).map f).sum = ∑ j ∈ range k, f j := by
  induction k with
  | zero => rfl
  | succ k ih => rw [List.range_succ, List.map_append, List.sum_append, ih, Finset.sum_range_succ]; simp

theorem offset_ok (hS : SeqShape nx nu N As Bs cs) {i : ℕ} (h0 : 0 < i) (hi : i < N) :
    ∃ o, offsetAt As cs i = .ok o ∧ o.n = nx ∧
      ∀ r < nx, o.e r = ∑ j ∈ range (i + 1), act (backSlice As i j) (fun k => (cs.getD j vec0).e k) r := by
  have hp : ∀ j < i, ∃ M, productory (backSlice As i j) = .ok M ∧ M.nr = nx ∧ M.nc = nx ∧
      ∀ r x, rowVal M r x = act (backSlice As i j) x r := fun j hj =>
    productory_ok (backSlice_ne hj (by rw [hS.lA]; exact hi)) fun A hA => hS.hA A (backSlice_mem hA)
  choose! M hM1 hM2 hM3 hM4 using hp
  have hcj : ∀ j < N, (cs.getD j vec0).n = nx := fun j hj => hS.hc _ (getD_mem _ (by rw [hS.lc]; exact hj))
  have hl : ((List.range i).mapM fun j => do
      let M ← productory (backSlice As i j)
      let cj ← np.listGet cs j
      np.dotMV M cj) = .ok ((List.range i).map fun j => (M j).mulVec (cs.getD j vec0)) := by
    refine mapM_ok fun j hj => ?_
    have hj := List.mem_range.1 hj
    rw [hM1 j hj, Py.ok_bind, listGet_ok vec0 (by rw [hS.lc]; omega), Py.ok_bind]
    exact if_pos (by rw [hM3 j hj, hcj j (by omega)])
  obtain ⟨k, rfl⟩ : ∃ k, i = k + 1 := ⟨i - 1, by omega⟩
  obtain ⟨s, s1, s2, s3⟩ := foldl_add (n := nx) ((List.range k).map fun j => (M (j + 1)).mulVec (cs.getD (j + 1) vec0))
    ((M 0).mulVec (cs.getD 0 vec0)) (by
      intro w hw
      obtain ⟨j, hj, rfl⟩ := List.mem_map.1 hw
      have := List.mem_range.1 hj
      exact hM2 (j + 1) (by omega)) (hM2 0 (by omega))
  have hsum : sumVec ((List.range (k + 1)).map fun j => (M j).mulVec (cs.getD j vec0)) = .ok s := by
    rw [List.range_succ_eq_map, List.map_cons, List.map_map]
    exact s1
  have e1 : np.addV s (cs.getD (k + 1) vec0) = .ok (s.add (cs.getD (k + 1) vec0)) := if_pos (by rw [s2, hcj _ hi])
  refine ⟨s.add (cs.getD (k + 1) vec0), ?_, s2, fun r hr => ?_⟩
  · unfold offsetAt
    rw [hl, Py.ok_bind, hsum, Py.ok_bind, listGet_ok vec0 (by rw [hS.lc]; omega), Py.ok_bind, e1]
  · rw [Vec.add_e, s3, Finset.sum_range_succ, backSlice_self, List.map_map]
    have e2 : ∀ j ≤ k, ((M j).mulVec (cs.getD j vec0)).e r = act (backSlice As (k + 1) j) (fun k => (cs.getD j vec0).e k) r := by
      intro j hj
      rw [← hM4 j (by omega)]
      rfl
    have e3 : ((List.range k).map ((fun w : Vec ℝ => w.e r) ∘ fun j => (M (j + 1)).mulVec (cs.getD (j + 1) vec0))).sum
        = ∑ j ∈ range k, act (backSlice As (k + 1) (j + 1)) (fun k => (cs.getD (j + 1) vec0).e k) r := by
      rw [sum_map_range]
      exact Finset.sum_congr rfl fun j hj => e2 (j + 1) (by have := mem_range.1 hj; omega)
    rw [e3, e2 0 (by omega), Finset.sum_range_succ' _ k]
    simp only [act]
    ring

theorem offsets_ok (hS : SeqShape nx nu N As Bs cs) (hN : 0 < N) :
    ∃ c, ((List.range (N - 1)).foldlM (fun c k => do
        let o ← offsetAt As cs (k + 1)
        np.concatenate [c, o]) ((Vec.zeros nx).append (cs.getD 0 vec0))) = .ok c ∧ c.n = nx * (N + 1) ∧
      (∀ r < nx, c.e r = 0) ∧
      ∀ i < N, ∀ r < nx, c.e (nx * (i + 1) + r) = ∑ j ∈ range (i + 1), act (backSlice As i j) (fun k => (cs.getD j vec0).e k) r := by
  have main : ∀ m ≤ N - 1, ∃ c, ((List.range m).foldlM (fun c k => do
        let o ← offsetAt As cs (k + 1)
        np.concatenate [c, o]) ((Vec.zeros nx).append (cs.getD 0 vec0))) = .ok c ∧ c.n = nx * (m + 2) ∧
      (∀ r < nx, c.e r = 0) ∧
      ∀ i ≤ m, ∀ r < nx, c.e (nx * (i + 1) + r) = ∑ j ∈ range (i + 1), act (backSlice As i j) (fun k => (cs.getD j vec0).e k) r := by
    intro m
    induction m with
    | zero =>
      intro _
      have hc0 : (cs.getD 0 vec0).n = nx := hS.hc _ (getD_mem _ (by rw [hS.lc]; exact hN))
      refine ⟨_, rfl, by rw [Vec.append_n, hc0]; simp; ring, fun r hr => ?_, fun i hi r hr => ?_⟩
      · rw [Vec.append_e_lt _ _ (by simpa using hr)]; rfl
      · have : i = 0 := by omega
        subst this
        rw [Finset.sum_range_one, backSlice_self, show nx * (0 + 1) + r = (Vec.zeros nx : Vec ℝ).n + r by simp, Vec.append_e_add]
        rfl
    | succ m ih =>
      intro hm
      obtain ⟨c, h1, h2, h3, h4⟩ := ih (by omega)
      obtain ⟨o, o1, o2, o3⟩ := offset_ok hS (i := m + 1) (by omega) (by omega)
      refine ⟨c.append o, ?_, by simp [h2, o2]; ring, fun r hr => ?_, fun i hi r hr => ?_⟩
      · rw [List.range_succ, List.foldlM_append, h1, Py.ok_bind, List.foldlM_cons, o1]
        simp [np.concatenate, Vec.concat]
      · rw [Vec.append_e_lt _ _ (by rw [h2]; nlinarith)]
        exact h3 r hr
      · rcases (show i ≤ m ∨ i = m + 1 by omega) with hlt | rfl
        · rw [Vec.append_e_lt _ _ (by rw [h2]; nlinarith), h4 i hlt r hr]
        · rw [show nx * (m + 1 + 1) + r = c.n + r by rw [h2], Vec.append_e_add, o3 r hr]
  obtain ⟨c, h1, h2, h3, h4⟩ := main (N - 1) le_rfl
  exact ⟨c, h1, by rw [h2]; congr 1; omega, h3, fun i hi => h4 i (by omega)⟩

theorem act_add : ∀ (l : List (Mat ℝ)) (x y : ℕ → ℝ) (i : ℕ), act l (fun k => x k + y k) i = act l x i + act l y i
  | [], _, _, _ => rfl
  | A :: l, x, y, i => by
    show rowVal A i (act l _) = rowVal A i (act l x) + rowVal A i (act l y)
    rw [← rowVal_add']
    congr 1
    funext j
    exact act_add l x y j

/-- `condense_pwa_system` gives the stacked trajectory -/
theorem condense_ok {systems : List AffineSystem} {modes : List ℕ} {S0 : AffineSystem} (h0 : systems[0]? = some S0)
    (hshape : ∀ S ∈ systems, SystemShape S0.nx S0.nu S.A S.B S.c) (hmodes : ∀ m ∈ modes, m < systems.length)
    (hne : modes ≠ []) :
    ∃ A_bar B_bar c_bar, condense_pwa_system systems modes = .ok (A_bar, B_bar, c_bar) ∧
      A_bar.nr = S0.nx * (modes.length + 1) ∧ A_bar.nc = S0.nx ∧
      B_bar.nr = S0.nx * (modes.length + 1) ∧ B_bar.nc = S0.nu * modes.length ∧ c_bar.n = S0.nx * (modes.length + 1) ∧
      ∀ (x0 : ℕ → ℝ) (u : ℕ → ℕ → ℝ) (ubar : ℕ → ℝ),
        (∀ t < modes.length, ∀ s < S0.nu, ubar (S0.nu * t + s) = u t s) →
        ∀ t ≤ modes.length, ∀ i < S0.nx, rowVal A_bar (S0.nx * t + i) x0 + rowVal B_bar (S0.nx * t + i) ubar + c_bar.e (S0.nx * t + i)
          = traj (fun t => (systems.getD (modes.getD t 0) S0).A) (fun t => (systems.getD (modes.getD t 0) S0).B)
            (fun t => (systems.getD (modes.getD t 0) S0).c) x0 u t i := by
  set N := modes.length with hN
  have hNpos : 0 < N := List.length_pos_iff.2 hne
  set seq := modes.map fun m => systems.getD m S0 with hseq
  have hmem : ∀ S ∈ seq, S ∈ systems := by
    intro S hS
    obtain ⟨m, hm, rfl⟩ := List.mem_map.1 hS
    exact getD_mem _ (hmodes m hm)
  have hmap : modes.mapM (np.listGet systems) = .ok seq := mapM_ok fun m hm => listGet_ok S0 (hmodes m hm)
  have hS : SeqShape S0.nx S0.nu N (seq.map (·.A)) (seq.map (·.B)) (seq.map (·.c)) := by
    refine ⟨by simp [hseq, hN], by simp [hseq, hN], by simp [hseq, hN], ?_, ?_, ?_⟩
    · intro A hA
      obtain ⟨S, hS, rfl⟩ := List.mem_map.1 hA
      obtain ⟨a, b, -⟩ := hshape S (hmem S hS)
      exact ⟨a, b⟩
    · intro A hA
      obtain ⟨S, hS, rfl⟩ := List.mem_map.1 hA
      obtain ⟨-, -, a, b, -⟩ := hshape S (hmem S hS)
      exact ⟨a, b⟩
    · intro A hA
      obtain ⟨S, hS, rfl⟩ := List.mem_map.1 hA
      exact (hshape S (hmem S hS)).2.2.2.2
  obtain ⟨F, A_bar, f1, f2, f3, f4, f5, f6⟩ := free_ok hS hNpos
  obtain ⟨V, v1, v2⟩ := Py.bind_eq_ok f2
  obtain ⟨Bf, b1, b2, b3, b4⟩ := forced_ok hS
  obtain ⟨c, c1, c2, c3, c4⟩ := offsets_ok hS hNpos
  have hB : np.vstack [Mat.zeros S0.nx (S0.nu * N), Bf] = .ok ((Mat.zeros S0.nx (S0.nu * N)).vapp Bf) := if_pos (by simp [b3])
  have hget0 : np.listGet systems 0 = .ok S0 := by unfold np.listGet; rw [h0]
  refine ⟨A_bar, (Mat.zeros S0.nx (S0.nu * N)).vapp Bf, c, ?_, f3, f4, by simp [b2]; ring, rfl, c2, ?_⟩
  · unfold condense_pwa_system
    rw [hget0, Py.ok_bind, hmap, Py.ok_bind]
    simp only [← hN]
    rw [f1, Py.ok_bind, v1, Py.ok_bind, v2, Py.ok_bind, b1, Py.ok_bind, hB, Py.ok_bind,
      listGet_ok vec0 (by rw [hS.lc]; exact hNpos), Py.ok_bind, c1]
    rfl
  · intro x0 u ubar hu t ht i hi
    cases t with
    | zero =>
      rw [Nat.mul_zero, Nat.zero_add, f5 x0 i hi, c3 i hi]
      have : rowVal ((Mat.zeros S0.nx (S0.nu * N)).vapp Bf) i ubar = 0 :=
        Finset.sum_eq_zero fun j _ => by rw [Mat.vapp_e_lt _ _ _ (by simpa using hi)]; simp
      rw [this]
      simp [traj]
    | succ t =>
      have ht : t < N := by omega
      have hlist : ∀ s, s ≤ t → ((seq.map (·.A)).getD s mat0 = (systems.getD (modes.getD s 0) S0).A ∧
          (seq.map (·.B)).getD s mat0 = (systems.getD (modes.getD s 0) S0).B ∧
          (seq.map (·.c)).getD s vec0 = (systems.getD (modes.getD s 0) S0).c) := by
        intro s hs
        have hs' : s < modes.length := by omega
        refine ⟨?_, ?_, ?_⟩ <;>
        · rw [List.getD_eq_getElem _ _ (by simp [hseq]; omega), List.getElem_map, List.getElem_map,
            List.getD_eq_getElem _ _ hs']
      have htraj : ∀ s ≤ t + 1, ∀ i, traj (fun t => (systems.getD (modes.getD t 0) S0).A) (fun t => (systems.getD (modes.getD t 0) S0).B)
            (fun t => (systems.getD (modes.getD t 0) S0).c) x0 u s i
          = traj (fun t => (seq.map (·.A)).getD t mat0) (fun t => (seq.map (·.B)).getD t mat0)
            (fun t => (seq.map (·.c)).getD t vec0) x0 u s i := by
        intro s
        induction s with
        | zero => intro _ _; rfl
        | succ s ih =>
          intro hs i
          obtain ⟨e1, e2, e3⟩ := hlist s (by omega)
          have := funext (ih (by omega))
          simp only [traj]
          rw [this, e1, e2, e3]
      rw [htraj (t + 1) le_rfl i, traj_formula hS x0 u t ht i hi, f6 x0 t ht i hi, c4 t ht i hi]
      have e1 : rowVal ((Mat.zeros S0.nx (S0.nu * N)).vapp Bf) (S0.nx * (t + 1) + i) ubar = rowVal Bf (S0.nx * t + i) ubar := by
        unfold rowVal
        rw [Mat.vapp_nc, b3]
        refine Finset.sum_congr rfl fun j _ => ?_
        rw [show S0.nx * (t + 1) + i = (Mat.zeros S0.nx (S0.nu * N) : Mat ℝ).nr + (S0.nx * t + i) by simp; ring, Mat.vapp_e_add]
      rw [e1, b4 t ht i hi, add_assoc, ← Finset.sum_add_distrib]
      congr 1
      refine Finset.sum_congr rfl fun j hj => ?_
      have hj := mem_range.1 hj
      rw [← act_add]
      congr 1
      funext k
      congr 1
      refine rowVal_congr' k fun s hs => hu j (by omega) s ?_
      have := (hS.hB _ (getD_mem (i := j) mat0 (by rw [hS.lB]; omega))).2
      omega

end Dyn
end Verif
