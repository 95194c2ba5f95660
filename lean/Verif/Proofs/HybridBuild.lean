import Verif.Model.Hybrid
import Verif.Proofs.Blocks

/- The inequalities of one stage of the mixed-integer program. -/
namespace Verif
namespace Control
open Finset Spec Dyn

theorem off_const {c : ℕ} : ∀ {ns : List ℕ}, (∀ n ∈ ns, n = c) → ∀ i ≤ ns.length, off ns i = c * i
  | [], _, i, h => by
    have : i = 0 := by simpa using h
    simp [this]
  | n :: ns, h, 0, _ => by simp
  | n :: ns, h, i + 1, hi => by
    rw [off_succ, off_const (fun m hm => h m (by simp [hm])) i (by simpa using hi), h n (by simp)]
    ring

theorem sum_const {c : ℕ} {ns : List ℕ} (h : ∀ n ∈ ns, n = c) : ns.sum = c * ns.length := by
  have := off_const h ns.length le_rfl
  rwa [off, List.take_length] at this

/-- `bigM[i][j][k]` -/
def bm (M : List (List (Mat ℝ))) (i j k : ℕ) : ℝ := ((M.getD i []).getD j mat0).e k 0

/-- `s` times `s` columns, the sizes of the columns of the `i`-th row are `ns[i]` -/
structure IsBigM (s : ℕ) (ns : List ℕ) (M : List (List (Mat ℝ))) : Prop where
  lns : ns.length = s
  len : M.length = s
  row : ∀ i < s, (M.getD i []).length = s
  sz : ∀ i < s, ∀ j < s, ((M.getD i []).getD j mat0).nr = ns.getD i 0 ∧ ((M.getD i []).getD j mat0).nc = 1

theorem setBigM_fold {s : ℕ} {ns : List ℕ} {M : List (List (Mat ℝ))} (h : IsBigM s ns M) :
    ∀ (l : List (ℕ × ℕ)) (B : Mat ℝ), (∀ p ∈ l, p.1 < s ∧ p.2 < s) → B.nr = ns.sum → B.nc = s →
      ∃ B', l.foldlM (setBigM M ns) B = .ok B' ∧ B'.nr = ns.sum ∧ B'.nc = s ∧
        ∀ i < s, ∀ k < ns.getD i 0, ∀ j, B'.e (off ns i + k) j
          = if (i, j) ∈ l ∧ j ≠ i then bm M i j k else B.e (off ns i + k) j
  | [], B, _, h1, h2 => ⟨B, rfl, h1, h2, fun i _ k _ j => by simp⟩
  | p :: l, B, hl, h1, h2 => by
    obtain ⟨p1, p2⟩ := hl p (by simp)
    by_cases hp : p.2 ≠ p.1
    · have e1 : np.listGet M p.1 = .ok (M.getD p.1 []) := listGet_ok _ (by rw [h.len]; exact p1)
      have e2 : np.listGet (M.getD p.1 []) p.2 = .ok ((M.getD p.1 []).getD p.2 mat0) := listGet_ok _ (by rw [h.row _ p1]; exact p2)
      obtain ⟨z1, z2⟩ := h.sz _ p1 _ p2
      have hnext := off_next ns p.1 (by rw [h.lns]; exact p1)
      have hle := off_add_lt ns p.1 (by rw [h.lns]; exact p1)
      have e3 : setBigM M ns B p = .ok (B.setBlock (off ns p.1) p.2 ((M.getD p.1 []).getD p.2 mat0)) := by
        unfold setBigM
        rw [if_pos hp, e1, Py.ok_bind, e2, Py.ok_bind]
        show assignBlock B (off ns p.1) p.2 (off ns (p.1 + 1) - off ns p.1) 1 _ = _
        refine assign_ok ?_ z2 ?_ (by omega)
        · rw [z1]; omega
        · omega
      obtain ⟨B', k1, k2, k3, k4⟩ := setBigM_fold h l (B.setBlock (off ns p.1) p.2 ((M.getD p.1 []).getD p.2 mat0))
        (fun q hq => hl q (by simp [hq])) h1 h2
      refine ⟨B', ?_, k2, k3, fun i hi k hk j => ?_⟩
      · rw [List.foldlM_cons, e3, Py.ok_bind]
        exact k1
      · rw [k4 i hi k hk j]
        by_cases hm : (i, j) ∈ l ∧ j ≠ i
        · rw [if_pos hm, if_pos ⟨by simp [hm.1], hm.2⟩]
        · rw [if_neg hm]
          by_cases hij : (i, j) = p
          · subst hij
            rw [if_pos ⟨by simp, hp⟩]
            unfold Mat.setBlock
            simp only
            rw [z1, z2, if_pos ⟨Nat.le_add_right _ _, Nat.add_lt_add_left hk _, le_rfl, Nat.lt_succ_self _⟩]
            simp [bm]
          · rw [if_neg (by
              rintro ⟨ha, hb⟩
              rcases List.mem_cons.1 ha with ha | ha
              · exact hij ha
              · exact hm ⟨ha, hb⟩)]
            unfold Mat.setBlock
            simp only
            rw [z1, z2, if_neg]
            rintro ⟨c1, c2, c3, c4⟩
            have := off_inj ns i p.1 k (off ns i + k - off ns p.1) (by rw [h.lns]; exact hi) (by rw [h.lns]; exact p1) hk (by omega) (by omega)
            exact hij (Prod.ext this.1 (show j = p.2 by omega))
    · have e3 : setBigM M ns B p = .ok B := by
        unfold setBigM
        rw [if_neg hp]
      obtain ⟨B', k1, k2, k3, k4⟩ := setBigM_fold h l B (fun q hq => hl q (by simp [hq])) h1 h2
      refine ⟨B', ?_, k2, k3, fun i hi k hk j => ?_⟩
      · rw [List.foldlM_cons, e3, Py.ok_bind]
        exact k1
      · rw [k4 i hi k hk j]
        refine if_congr ?_ rfl rfl
        constructor
        · rintro ⟨a, b⟩
          exact ⟨by simp [a], b⟩
        · rintro ⟨a, b⟩
          rcases List.mem_cons.1 a with a | a
          · subst a
            exact absurd b hp
          · exact ⟨a, b⟩

theorem mem_pairs {s : ℕ} {p : ℕ × ℕ} : p ∈ pairs s ↔ p.1 < s ∧ p.2 < s := by
  unfold pairs
  simp only [List.mem_flatMap, List.mem_map, List.mem_range]
  constructor
  · rintro ⟨i, hi, j, hj, rfl⟩
    exact ⟨hi, hj⟩
  · rintro ⟨h1, h2⟩
    exact ⟨p.1, h1, p.2, h2, rfl⟩

theorem bigM_matrices_ok {s : ℕ} {ns : List ℕ} {M : List (List (Mat ℝ))} (h : IsBigM s ns M) (hs : 0 < s) :
    ∃ B, bigM_matrices M = .ok B ∧ B.nr = ns.sum ∧ B.nc = s ∧
      ∀ i < s, ∀ k < ns.getD i 0, ∀ d : ℕ → ℝ, rowVal B (off ns i + k) d = ∑ j ∈ (range s).erase i, bm M i j k * d j := by
  have e1 : (M.mapM fun r => do
      let m ← np.listGet r 0
      return m.nr) = .ok (M.map fun r => (r.getD 0 mat0).nr) := by
    refine mapM_ok (g := fun r : List (Mat ℝ) => (r.getD 0 mat0).nr) fun r hr => ?_
    obtain ⟨i, hi, rfl⟩ := List.getElem_of_mem hr
    have := h.row i (by rw [← h.len]; exact hi)
    rw [List.getD_eq_getElem _ _ hi] at this
    rw [listGet_ok mat0 (by rw [this]; exact hs)]
    rfl
  have e2 : (M.map fun r => (r.getD 0 mat0).nr) = ns := by
    apply List.ext_getElem
    · rw [List.length_map, h.len, h.lns]
    · intro i h1 h2
      have hi : i < s := by rw [← h.lns]; exact h2
      have := (h.sz i hi 0 hs).1
      rw [List.getD_eq_getElem ns 0 h2, List.getD_eq_getElem M [] (by rw [h.len]; exact hi)] at this
      rw [List.getElem_map]
      exact this
  obtain ⟨B, k1, k2, k3, k4⟩ := setBigM_fold h (pairs s) (Mat.zeros ns.sum s) (fun p hp => mem_pairs.1 hp) rfl rfl
  refine ⟨B, ?_, k2, k3, fun i hi k hk d => ?_⟩
  · unfold bigM_matrices
    rw [e1, Py.ok_bind, e2, h.len]
    exact k1
  · unfold rowVal
    rw [k3, ← Finset.add_sum_erase _ _ (Finset.mem_range.2 hi), k4 i hi k hk, if_neg (by simp)]
    show 0 * d i + _ = _
    rw [zero_mul, zero_add]
    refine Finset.sum_congr rfl fun j hj => ?_
    obtain ⟨hj1, hj2⟩ := Finset.mem_erase.1 hj
    rw [k4 i hi k hk, if_pos ⟨mem_pairs.2 ⟨hi, mem_range.1 hj2⟩, hj1⟩]

theorem diagonal_ok {s : ℕ} {ns : List ℕ} {M : List (List (Mat ℝ))} (h : IsBigM s ns M) (hs : 0 < s) :
    ∃ a, diagonal M s = .ok a ∧ (np.block_diag a).nr = ns.sum ∧ (np.block_diag a).nc = s ∧
      ∀ i < s, ∀ k < ns.getD i 0, ∀ d : ℕ → ℝ, rowVal (np.block_diag a) (off ns i + k) d = bm M i i k * d i := by
  refine ⟨(List.range s).map fun i => (M.getD i []).getD i mat0, ?_, ?_⟩
  · unfold diagonal
    refine mapM_ok (g := fun i => (M.getD i []).getD i mat0) fun i hi => ?_
    have hi := List.mem_range.1 hi
    rw [listGet_ok ([] : List (Mat ℝ)) (by rw [h.len]; exact hi), Py.ok_bind, listGet_ok mat0 (by rw [h.row i hi]; exact hi)]
  · set a := (List.range s).map fun i => (M.getD i []).getD i mat0 with ha
    have hlen : a.length = s := by simp [ha]
    have hget : ∀ i < s, a.getD i mat0 = (M.getD i []).getD i mat0 := fun i hi => by
      rw [List.getD_eq_getElem _ _ (by rw [hlen]; exact hi)]
      simp only [ha, List.getElem_map, List.getElem_range]
    have hne : a ≠ [] := fun hc => by
      rw [hc] at hlen
      simp at hlen
      omega
    rw [show np.block_diag a = Mat.bdiag a from if_neg hne]
    obtain ⟨b1, b2, b3⟩ := bdiag_off a
    have hnr : a.map (·.nr) = ns := by
      apply List.ext_getElem
      · rw [List.length_map, hlen, h.lns]
      · intro i h1 h2
        have hi : i < s := by rw [← h.lns]; exact h2
        have := (h.sz i hi i hi).1
        rw [List.getD_eq_getElem ns 0 h2] at this
        rw [List.getElem_map, ← this, ← hget i hi, List.getD_eq_getElem]
    have hnc : ∀ n ∈ a.map (·.nc), n = 1 := by
      intro n hn
      simp only [ha, List.map_map, List.mem_map, List.mem_range] at hn
      obtain ⟨i, hi, rfl⟩ := hn
      exact (h.sz i hi i hi).2
    rw [hnr] at b1 b3
    refine ⟨b1, ?_, fun i hi k hk d => ?_⟩
    · rw [b2, sum_const hnc, List.length_map, hlen, one_mul]
    · rw [b3 i (by rw [hlen]; exact hi) k (by rw [hget i hi, (h.sz i hi i hi).1]; exact hk), hget i hi,
        off_const hnc i (by rw [List.length_map, hlen]; omega), one_mul]
      unfold rowVal
      rw [(h.sz i hi i hi).2, Finset.sum_range_one]
      rfl

/-- five stacks of blocks with the same numbers of rows -/
theorem holds_off {ns : List ℕ} {a b c e : ℕ} {Lx Lu Lz Ld : List (Mat ℝ)} {Lh : List (Vec ℝ)} (hne : ns ≠ [])
    (hx : Lx.map (·.nr) = ns) (hu : Lu.map (·.nr) = ns) (hz : Lz.map (·.nr) = ns) (hd : Ld.map (·.nr) = ns) (hh : Lh.map (·.n) = ns)
    (cx : ∀ A ∈ Lx, A.nc = a) (cu : ∀ A ∈ Lu, A.nc = b) (cz : ∀ A ∈ Lz, A.nc = c) (cd : ∀ A ∈ Ld, A.nc = e) :
    ∃ X U Z D, np.vstack Lx = .ok X ∧ np.vstack Lu = .ok U ∧ np.vstack Lz = .ok Z ∧ np.vstack Ld = .ok D ∧
      np.concatenate Lh = .ok (Vec.concat Lh) ∧
      (X.nr = ns.sum ∧ X.nc = a) ∧ (U.nr = ns.sum ∧ U.nc = b) ∧ (Z.nr = ns.sum ∧ Z.nc = c) ∧ (D.nr = ns.sum ∧ D.nc = e) ∧
      (Vec.concat Lh).n = ns.sum ∧
      ∀ (ε : ℝ) (x u z d : ℕ → ℝ), (∀ r < ns.sum, rowVal X r x + rowVal U r u + rowVal Z r z + rowVal D r d ≤ (Vec.concat Lh).e r + ε) ↔
        ∀ i < ns.length, ∀ k < ns.getD i 0, rowVal (Lx.getD i mat0) k x + rowVal (Lu.getD i mat0) k u
          + rowVal (Lz.getD i mat0) k z + rowVal (Ld.getD i mat0) k d ≤ (Lh.getD i vec0).e k + ε := by
  have ne : ∀ L : List (Mat ℝ), L.map (·.nr) = ns → L ≠ [] := by
    rintro L hL rfl
    exact hne (by rw [← hL]; rfl)
  have ln : ∀ L : List (Mat ℝ), L.map (·.nr) = ns → L.length = ns.length := by
    rintro L hL
    rw [← hL, List.length_map]
  have gt : ∀ L : List (Mat ℝ), L.map (·.nr) = ns → ∀ i < ns.length, (L.getD i mat0).nr = ns.getD i 0 := by
    rintro L hL i hi
    rw [← hL, getD_map' (by rw [ln L hL]; exact hi) (fun A : Mat ℝ => A.nr) mat0 0]
  obtain ⟨X, x1, x2, x3, x4⟩ := vstack_row (ne _ hx) cx
  obtain ⟨U, u1, u2, u3, u4⟩ := vstack_row (ne _ hu) cu
  obtain ⟨Z, z1, z2, z3, z4⟩ := vstack_row (ne _ hz) cz
  obtain ⟨D, d1, d2, d3, d4⟩ := vstack_row (ne _ hd) cd
  obtain ⟨h1, h2⟩ := concat_off Lh
  rw [hx] at x2 x4
  rw [hu] at u2 u4
  rw [hz] at z2 z4
  rw [hd] at d2 d4
  rw [hh] at h1 h2
  refine ⟨X, U, Z, D, x1, u1, z1, d1, if_neg ?_, ⟨x2, x3⟩, ⟨u2, u3⟩, ⟨z2, z3⟩, ⟨d2, d3⟩, h1, fun ε x u z d => ?_⟩
  · rintro rfl
    exact hne (by rw [← hh]; rfl)
  · rw [forall_off ns]
    refine forall_congr' fun i => forall_congr' fun hi => forall_congr' fun k => forall_congr' fun hk => ?_
    have hlen : Lh.length = ns.length := by rw [← hh, List.length_map]
    rw [x4 i (by rw [ln _ hx]; exact hi) k (by rw [gt _ hx i hi]; exact hk),
      u4 i (by rw [ln _ hu]; exact hi) k (by rw [gt _ hu i hi]; exact hk),
      z4 i (by rw [ln _ hz]; exact hi) k (by rw [gt _ hz i hi]; exact hk),
      d4 i (by rw [ln _ hd]; exact hi) k (by rw [gt _ hd i hi]; exact hk),
      h2 i (by rw [hlen]; exact hi) k (by
        have : (Lh.getD i vec0).n = ns.getD i 0 := by
          rw [← hh, getD_map' (by rw [hlen]; exact hi) (fun v : Vec ℝ => v.n) vec0 0]
        rw [this]; exact hk)]

end Control
end Verif
