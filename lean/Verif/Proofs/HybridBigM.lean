import Verif.Proofs.HybridStage
import Verif.Props.Solvers

/- The big-M constants. -/
namespace Verif
namespace Control
open Finset Spec Dyn

theorem mapM_getD {α β : Type} {f : α → Py β} {l : List α} {r : List β} (h : l.mapM f = .ok r) (a0 : α) (b0 : β) :
    r.length = l.length ∧ ∀ i < l.length, f (l.getD i a0) = .ok (r.getD i b0) := by
  obtain ⟨h1, h2⟩ := mapM_ok_iff h
  refine ⟨h1, fun i hi => ?_⟩
  rw [List.getD_eq_getElem _ _ hi, List.getD_eq_getElem _ _ (by rw [h1]; exact hi)]
  exact h2 i hi _

/-- a mapM does not raise if no element does -/
theorem mapM_total {α β : Type} {f : α → Py β} : ∀ {l : List α}, (∀ a ∈ l, ∃ b, f a = .ok b) → ∃ r, l.mapM f = .ok r
  | [], _ => ⟨[], rfl⟩
  | a :: l, h => by
    obtain ⟨b, hb⟩ := h a (by simp)
    obtain ⟨r, hr⟩ := mapM_total (l := l) fun a ha => h a (by simp [ha])
    exact ⟨b :: r, by rw [List.mapM_cons, hb, Py.ok_bind, hr, Py.ok_bind]; rfl⟩

theorem column_ok {l : List ℝ} (hl : l ≠ []) : ∃ M, column l = .ok M ∧ M.nr = l.length ∧ M.nc = 1 ∧
    ∀ k < l.length, M.e k 0 = l.getD k 0 := by
  obtain ⟨M, h1, h2, h3, h4⟩ := vstack_off (l := l.map fun a : ℝ => (⟨1, 1, fun _ _ => a⟩ : Mat ℝ)) (n := 1) (by simpa using hl) (by
    intro A hA
    obtain ⟨a, _, rfl⟩ := List.mem_map.1 hA
    rfl)
  have hc : ∀ n ∈ (l.map fun a : ℝ => (⟨1, 1, fun _ _ => a⟩ : Mat ℝ)).map (·.nr), n = 1 := by
    intro n hn
    rw [List.map_map] at hn
    obtain ⟨a, _, rfl⟩ := List.mem_map.1 hn
    rfl
  refine ⟨M, h1, ?_, h3, fun k hk => ?_⟩
  · rw [h2, sum_const hc]; simp
  · have e : (l.map fun a : ℝ => (⟨1, 1, fun _ _ => a⟩ : Mat ℝ)).getD k mat0 = ⟨1, 1, fun _ _ => l.getD k 0⟩ :=
      getD_map' hk _ 0 mat0
    have := h4 k (by simpa using hk) 0 (by rw [e]; exact Nat.one_pos) 0
    rw [off_const hc k (by simp; omega), e, one_mul, add_zero] at this
    exact this

theorem column_inv {l : List ℝ} {M : Mat ℝ} (h : column l = .ok M) : l ≠ [] ∧ M.nr = l.length ∧ M.nc = 1 ∧
    ∀ k < l.length, M.e k 0 = l.getD k 0 := by
  by_cases hl : l = []
  · subst hl
    cases h
  · obtain ⟨M', h1, h2⟩ := column_ok hl
    rw [h1] at h
    cases h
    exact ⟨hl, h2⟩

/-- the constants computed for the dynamics, entry by entry -/
theorem bigM_dynamics_inv {L : Lib} {S : PWA} (h : PwaShape S) {al be : List (List (Mat ℝ))} (hrun : get_bigM_dynamics L S = .ok (al, be)) :
    IsBigM S.nm (List.replicate S.nm S.nx) al ∧ IsBigM S.nm (List.replicate S.nm S.nx) be ∧ 0 < S.nx ∧
    ∀ i < S.nm, ∀ j < S.nm, ∀ k < S.nx,
      dynBounds L ((sysAt S i).A.happ (sysAt S i).B) (sysAt S i).c (domAt S j) k = .ok (bm al i j k, bm be i j k) := by
  unfold get_bigM_dynamics at hrun
  obtain ⟨l, hl, hrun⟩ := Py.bind_eq_ok hrun
  cases hrun
  obtain ⟨l1, l2⟩ := mapM_getD hl sys0 (([], []) : List (Mat ℝ) × List (Mat ℝ))
  rw [h.lenS] at l1 l2
  -- one row
  have row : ∀ i < S.nm, (l.getD i ([], [])).1.length = S.nm ∧ (l.getD i ([], [])).2.length = S.nm ∧
      ∀ j < S.nm, bigM_dynamics_ij L (sysAt S i) ((sysAt S i).A.happ (sysAt S i).B) (domAt S j)
        = .ok ((l.getD i ([], [])).1.getD j mat0, (l.getD i ([], [])).2.getD j mat0) := by
    intro i hi
    have hi2 := l2 i hi
    have hT := h.sys (sysAt S i) (getD_mem _ (by rw [h.lenS]; exact hi))
    unfold bigM_dynamics_i at hi2
    have eh : np.hstack [(sysAt S i).A, (sysAt S i).B] = .ok ((sysAt S i).A.happ (sysAt S i).B) := by
      show (np.hstack [(sysAt S i).B] >>= fun C => np.hstack2 (sysAt S i).A C) = _
      rw [show np.hstack [(sysAt S i).B] = .ok (sysAt S i).B from rfl, Py.ok_bind]
      exact if_pos (by rw [hT.1.1, hT.1.2.2.1])
    rw [eh, Py.ok_bind] at hi2
    obtain ⟨m, hm, hi2⟩ := Py.bind_eq_ok hi2
    have hi2 := (Except.ok.inj hi2).symm
    rw [hi2]
    obtain ⟨m1, m2⟩ := mapM_getD hm 0 ((mat0, mat0) : Mat ℝ × Mat ℝ)
    rw [List.length_range, h.lenS] at m1 m2
    refine ⟨by simpa using m1, by simpa using m1, fun j hj => ?_⟩
    have := m2 j hj
    rw [List.getD_eq_getElem _ _ (by simpa [h.lenS] using hj), List.getElem_range] at this
    rw [listGet_ok poly0 (by rw [h.lenD]; exact hj), Py.ok_bind] at this
    rw [this]
    simp only
    rw [getD_map' (by rw [m1]; exact hj) (·.1) (mat0, mat0) mat0, getD_map' (by rw [m1]; exact hj) (·.2) (mat0, mat0) mat0]
  have ga : ∀ i < S.nm, (l.map (·.1)).getD i [] = (l.getD i ([], [])).1 := fun i hi =>
    getD_map' (by rw [l1]; exact hi) (·.1) ([], []) []
  have gb : ∀ i < S.nm, (l.map (·.2)).getD i [] = (l.getD i ([], [])).2 := fun i hi =>
    getD_map' (by rw [l1]; exact hi) (·.2) ([], []) []
  -- one entry
  have ent : ∀ i < S.nm, ∀ j < S.nm, ∃ r : List (ℝ × ℝ), r ≠ [] ∧ r.length = S.nx ∧
      (∀ k < S.nx, dynBounds L ((sysAt S i).A.happ (sysAt S i).B) (sysAt S i).c (domAt S j) k = .ok (r.getD k (0, 0))) ∧
      (((l.getD i ([], [])).1.getD j mat0).nr = S.nx ∧ ((l.getD i ([], [])).1.getD j mat0).nc = 1 ∧
        ∀ k < S.nx, ((l.getD i ([], [])).1.getD j mat0).e k 0 = (r.getD k (0, 0)).1) ∧
      (((l.getD i ([], [])).2.getD j mat0).nr = S.nx ∧ ((l.getD i ([], [])).2.getD j mat0).nc = 1 ∧
        ∀ k < S.nx, ((l.getD i ([], [])).2.getD j mat0).e k 0 = (r.getD k (0, 0)).2) := by
    intro i hi j hj
    have hT := h.sys (sysAt S i) (getD_mem _ (by rw [h.lenS]; exact hi))
    have hij := (row i hi).2.2 j hj
    unfold bigM_dynamics_ij at hij
    obtain ⟨r, hr, hij⟩ := Py.bind_eq_ok hij
    obtain ⟨a, hca, hij⟩ := Py.bind_eq_ok hij
    obtain ⟨b, hcb, hij⟩ := Py.bind_eq_ok hij
    obtain ⟨ea, eb⟩ := Prod.mk.inj (Except.ok.inj hij)
    subst ea eb
    obtain ⟨r1, r2⟩ := mapM_getD hr 0 ((0, 0) : ℝ × ℝ)
    rw [List.length_range, hT.2.1] at r1 r2
    obtain ⟨a0, a1, a2, a3⟩ := column_inv hca
    obtain ⟨b0, b1, b2, b3⟩ := column_inv hcb
    rw [List.length_map, r1] at a1 a3 b1 b3
    refine ⟨r, by simpa using a0, r1, fun k hk => ?_, ⟨a1, a2, fun k hk => ?_⟩, ⟨b1, b2, fun k hk => ?_⟩⟩
    · have := r2 k hk
      rwa [List.getD_eq_getElem _ _ (by simpa [hT.2.1] using hk), List.getElem_range] at this
    · rw [a3 k hk, getD_map' (by rw [r1]; exact hk) (·.1) (0, 0) 0]
    · rw [b3 k hk, getD_map' (by rw [r1]; exact hk) (·.2) (0, 0) 0]
  have rep : ∀ i < S.nm, (List.replicate S.nm S.nx).getD i 0 = S.nx := fun i hi => by
    rw [List.getD_eq_getElem _ _ (by simpa using hi), List.getElem_replicate]
  refine ⟨⟨by simp, by simpa using l1, fun i hi => by rw [ga i hi]; exact (row i hi).1, fun i hi j hj => ?_⟩,
    ⟨by simp, by simpa using l1, fun i hi => by rw [gb i hi]; exact (row i hi).2.1, fun i hi j hj => ?_⟩, ?_, fun i hi j hj k hk => ?_⟩
  · obtain ⟨r, -, -, -, ⟨e1, e2, -⟩, -⟩ := ent i hi j hj
    rw [ga i hi, rep i hi]
    exact ⟨e1, e2⟩
  · obtain ⟨r, -, -, -, -, ⟨e1, e2, -⟩⟩ := ent i hi j hj
    rw [gb i hi, rep i hi]
    exact ⟨e1, e2⟩
  · obtain ⟨r, hr, hlen, -⟩ := ent 0 h.pos 0 h.pos
    rw [← hlen]
    exact List.length_pos_iff.2 hr
  · obtain ⟨r, -, -, hk1, ⟨-, -, e1⟩, ⟨-, -, e2⟩⟩ := ent i hi j hj
    rw [hk1 k hk]
    unfold bm
    rw [ga i hi, gb i hi, e1 k hk, e2 k hk]

/-- the `k`-th entry of `gamma_ij` -/
noncomputable def domBound (L : Lib) (D_i D : Poly) (k : ℕ) : Py ℝ := do
  let sol ← lpOver L (D_i.A.row k).neg D
  let m ← Poly.negMin sol
  return m - D_i.b.e k

theorem bigM_domains_inv {L : Lib} {S : PWA} (h : PwaShape S) {ga : List (List (Mat ℝ))} (hrun : get_bigM_domains L S = .ok ga) :
    IsBigM S.nm (S.domains.map fun D => D.A.nr) ga ∧ (∀ i < S.nm, 0 < (domAt S i).A.nr) ∧
    ∀ i < S.nm, ∀ j < S.nm, ∀ k < (domAt S i).A.nr, domBound L (domAt S i) (domAt S j) k = .ok (bm ga i j k) := by
  unfold get_bigM_domains at hrun
  obtain ⟨l1, l2⟩ := mapM_getD hrun poly0 ([] : List (Mat ℝ))
  rw [h.lenD] at l1 l2
  have row : ∀ i < S.nm, (ga.getD i []).length = S.nm ∧
      ∀ j < S.nm, bigM_domains_ij L (domAt S i) (domAt S j) = .ok ((ga.getD i []).getD j mat0) := by
    intro i hi
    obtain ⟨m1, m2⟩ := mapM_getD (l2 i hi) poly0 mat0
    rw [h.lenD] at m1 m2
    exact ⟨m1, m2⟩
  have ent : ∀ i < S.nm, ∀ j < S.nm, 0 < (domAt S i).A.nr ∧ ((ga.getD i []).getD j mat0).nr = (domAt S i).A.nr ∧ ((ga.getD i []).getD j mat0).nc = 1 ∧
      ∀ k < (domAt S i).A.nr, domBound L (domAt S i) (domAt S j) k = .ok (((ga.getD i []).getD j mat0).e k 0) := by
    intro i hi j hj
    have hij := (row i hi).2 j hj
    unfold bigM_domains_ij at hij
    obtain ⟨r, hr, hij⟩ := Py.bind_eq_ok hij
    obtain ⟨r1, r2⟩ := mapM_getD hr 0 (0 : ℝ)
    rw [List.length_range] at r1 r2
    obtain ⟨a0, a1, a2, a3⟩ := column_inv hij
    rw [r1] at a1 a3
    refine ⟨by rw [← r1]; exact List.length_pos_iff.2 a0, a1, a2, fun k hk => ?_⟩
    have := r2 k hk
    rw [List.getD_eq_getElem _ _ (by simpa using hk), List.getElem_range] at this
    rw [a3 k hk]
    exact this
  have dn : ∀ i < S.nm, (S.domains.map fun D => D.A.nr).getD i 0 = (domAt S i).A.nr := fun i hi =>
    getD_map' (by rw [h.lenD]; exact hi) (fun D : Poly => D.A.nr) poly0 0
  exact ⟨⟨by simpa using h.lenD, l1, fun i hi => (row i hi).1, fun i hi j hj => by
    rw [dn i hi]; exact ⟨(ent i hi j hj).2.1, (ent i hi j hj).2.2.1⟩⟩, fun i hi => (ent i hi i hi).1, fun i hi j hj k hk => (ent i hi j hj).2.2.2 k hk⟩

end Control
end Verif
