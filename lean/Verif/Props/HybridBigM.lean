import Verif.Proofs.HybridBigM

/- Property of the big-M constants of the hybrid controller (C70). -/
namespace Verif.Props
open Finset Spec Dyn Control

/-- the domains are nonempty and bounded, with inequalities -/
structure GoodDomains (S : PWA) : Prop where
  shape : ∀ j < S.nm, PolyShape (S.nx + S.nu) (domAt S j).A (domAt S j).b (domAt S j).C (domAt S j).d
  rows : ∀ j < S.nm, 0 < (domAt S j).A.nr
  ne : ∀ j < S.nm, ∃ w, InPoly (domAt S j).A (domAt S j).b (domAt S j).C (domAt S j).d w
  bounded : ∀ j < S.nm, IsBounded (S.nx + S.nu) (domAt S j).A (domAt S j).b (domAt S j).C (domAt S j).d

theorem lpOver_least {L : Lib} (hL : LibSpec L) {D : Poly} {n : ℕ} (hs : PolyShape n D.A D.b D.C D.d) (hrows : 0 < D.A.nr)
    (hne : ∃ w, InPoly D.A D.b D.C D.d w) (hbd : IsBounded n D.A D.b D.C D.d) {f : Vec ℝ} (hf : f.n = n) :
    ∃ s m, lpOver L f D = .ok s ∧ s.min = some m ∧
      IsLeast {v | ∃ w, InPoly D.A D.b D.C D.d w ∧ v = ∑ j ∈ range n, f.e j * w j} m := by
  have hs' : Spec.ConstrShape n D.A D.b (some D.C) (some D.d) := hs
  have feas : ∀ x : Vec ℝ, Spec.Feasible D.A D.b (some D.C) (some D.d) x ↔ InPoly D.A D.b D.C D.d x.e := fun x => Iff.rfl
  have hopt : ∃ x, Spec.IsLpOpt f D.A D.b (some D.C) (some D.d) x := by
    by_contra hno
    rcases no_lpOpt hf hs' hno with h | h
    · obtain ⟨w, hw⟩ := hne
      exact h ⟨n, w⟩ ((feas _).2 hw)
    · obtain ⟨R, hR⟩ := hbd
      obtain ⟨x, hx, hlt⟩ := h (- ∑ j ∈ range n, |f.e j| * R)
      have hx' := hR x.e ((feas x).1 hx)
      have : - ∑ j ∈ range n, |f.e j| * R ≤ Spec.lpCost f x := by
        unfold Spec.lpCost
        rw [hf, ← Finset.sum_neg_distrib]
        refine Finset.sum_le_sum fun j hj => ?_
        have h1 := hx' j (mem_range.1 hj)
        have h2 : |f.e j * x.e j| ≤ |f.e j| * R := by
          rw [abs_mul]
          exact mul_le_mul_of_nonneg_left h1 (abs_nonneg _)
        exact (abs_le.1 h2).1
      linarith
  obtain ⟨s, x, lam, h1, -, h3, h4, h5, -⟩ := C30 L hL n f D.A D.b (some D.C) (some D.d) hf hs' (.inl hrows) 1e-7 (by norm_num) hopt
  refine ⟨s, _, h1, h5, ⟨x.e, (feas x).1 h4.1, by unfold Spec.lpCost; rw [hf]⟩, ?_⟩
  rintro v ⟨w, hw, rfl⟩
  have := h4.2 ⟨n, w⟩ ((feas _).2 hw)
  unfold Spec.lpCost at this
  rw [hf] at this
  unfold Spec.lpCost
  rw [hf]
  exact this

theorem row_pair {A B : Mat ℝ} {nx nu : ℕ} (hA : A.nc = nx) (hB : B.nc = nu) (k : ℕ) (w : ℕ → ℝ) :
    ∑ j ∈ range (nx + nu), ((A.happ B).row k).e j * w j = rowVal A k w + rowVal B k (fun j => w (nx + j)) := by
  rw [Finset.sum_range_add]
  unfold rowVal
  rw [hA, hB]
  congr 1
  · exact Finset.sum_congr rfl fun j hj => by
      show (A.happ B).e k j * w j = _
      rw [Mat.happ_e_lt _ _ _ (by rw [hA]; exact mem_range.1 hj)]
  · refine Finset.sum_congr rfl fun j hj => ?_
    show (A.happ B).e k (nx + j) * _ = _
    rw [← hA, Mat.happ_e_add]

theorem pair_self (nx : ℕ) (w : ℕ → ℝ) : pair nx w (fun j => w (nx + j)) = w := by
  funext j
  unfold pair
  split_ifs with h
  · rfl
  · show w (nx + (j - nx)) = w j
    rw [Nat.add_sub_cancel' (by omega)]

theorem neg_min_value {n : ℕ} (f : Vec ℝ) (w : ℕ → ℝ) : ∑ j ∈ range n, f.neg.e j * w j = - ∑ j ∈ range n, f.e j * w j := by
  rw [← Finset.sum_neg_distrib]
  exact Finset.sum_congr rfl fun j _ => by simp [Vec.neg]

/-- the entries of `alpha` and `beta` are the least and the greatest value of the dynamics over the domain -/
theorem dynBounds_spec {L : Lib} (hL : LibSpec L) {S : PWA} (h : PwaShape S) (hg : GoodDomains S) {i j k : ℕ} (hi : i < S.nm) (hj : j < S.nm) :
    ∃ a b, dynBounds L ((sysAt S i).A.happ (sysAt S i).B) (sysAt S i).c (domAt S j) k = .ok (a, b) ∧
      IsLeast {v | ∃ x u, InPoly (domAt S j).A (domAt S j).b (domAt S j).C (domAt S j).d (pair S.nx x u) ∧
        v = Spec.affine (sysAt S i).A (sysAt S i).B (sysAt S i).c x u k} a ∧
      IsGreatest {v | ∃ x u, InPoly (domAt S j).A (domAt S j).b (domAt S j).C (domAt S j).d (pair S.nx x u) ∧
        v = Spec.affine (sysAt S i).A (sysAt S i).B (sysAt S i).c x u k} b := by
  obtain ⟨hT, -, -⟩ := h.sys (sysAt S i) (getD_mem _ (by rw [h.lenS]; exact hi))
  set f := ((sysAt S i).A.happ (sysAt S i).B).row k with hf
  have hfn : f.n = S.nx + S.nu := by
    show (sysAt S i).A.nc + (sysAt S i).B.nc = _
    rw [hT.2.1, hT.2.2.2.1]
  obtain ⟨s, m, h1, h2, ⟨w, hw, hm⟩, h3⟩ := lpOver_least hL (hg.shape j hj) (hg.rows j hj) (hg.ne j hj) (hg.bounded j hj) hfn
  obtain ⟨s', m', h1', h2', ⟨w', hw', hm'⟩, h3'⟩ := lpOver_least hL (hg.shape j hj) (hg.rows j hj) (hg.ne j hj) (hg.bounded j hj) (f := f.neg) hfn
  have val : ∀ w : ℕ → ℝ, ∑ j ∈ range (S.nx + S.nu), f.e j * w j + (sysAt S i).c.e k
      = Spec.affine (sysAt S i).A (sysAt S i).B (sysAt S i).c w (fun j => w (S.nx + j)) k := fun w => by
    rw [hf, row_pair hT.2.1 hT.2.2.2.1]
    rfl
  have valp : ∀ x u : ℕ → ℝ, ∑ j ∈ range (S.nx + S.nu), f.e j * pair S.nx x u j + (sysAt S i).c.e k
      = Spec.affine (sysAt S i).A (sysAt S i).B (sysAt S i).c x u k := fun x u => by
    rw [hf, row_pair hT.2.1 hT.2.2.2.1]
    unfold Spec.affine
    rw [show ∑ j ∈ range (sysAt S i).A.nc, (sysAt S i).A.e k j * x j = rowVal (sysAt S i).A k (pair S.nx x u) from
      Finset.sum_congr rfl fun j hj => by rw [pair, if_pos (by rw [hT.2.1] at hj; exact mem_range.1 hj)],
      show ∑ j ∈ range (sysAt S i).B.nc, (sysAt S i).B.e k j * u j = rowVal (sysAt S i).B k (fun j => pair S.nx x u (S.nx + j)) from
      Finset.sum_congr rfl fun j hj => by
        show _ * u j = _ * pair S.nx x u (S.nx + j)
        rw [pair, if_neg (by omega), Nat.add_sub_cancel_left]]
  refine ⟨m + (sysAt S i).c.e k, -m' + (sysAt S i).c.e k, ?_, ⟨⟨w, fun j => w (S.nx + j), by rw [pair_self]; exact hw, ?_⟩, ?_⟩,
    ⟨⟨w', fun j => w' (S.nx + j), by rw [pair_self]; exact hw', ?_⟩, ?_⟩⟩
  · unfold dynBounds
    simp only
    rw [← hf, h1, Py.ok_bind, show plusMin s _ = .ok (m + (sysAt S i).c.e k) by unfold plusMin; rw [h2], Py.ok_bind, h1', Py.ok_bind,
      show Poly.negMin s' = .ok (-m') by unfold Poly.negMin; rw [h2'], Py.ok_bind]
    rfl
  · rw [← val, hm]
  · rintro v ⟨x, u, hxu, rfl⟩
    have := h3 ⟨_, hxu, rfl⟩
    rw [← valp x u]
    linarith
  · rw [← val, hm', neg_min_value, neg_neg]
  · rintro v ⟨x, u, hxu, rfl⟩
    have := h3' ⟨_, hxu, rfl⟩
    rw [neg_min_value] at this
    rw [← valp x u]
    linarith

theorem domBound_spec {L : Lib} (hL : LibSpec L) {S : PWA} (h : PwaShape S) (hg : GoodDomains S) {i j k : ℕ} (hi : i < S.nm) (hj : j < S.nm) :
    ∃ g, domBound L (domAt S i) (domAt S j) k = .ok g ∧
      IsGreatest {v | ∃ x u, InPoly (domAt S j).A (domAt S j).b (domAt S j).C (domAt S j).d (pair S.nx x u) ∧
        v = rowVal (domAt S i).A k (pair S.nx x u) - (domAt S i).b.e k} g := by
  have hD := (h.dom (domAt S i) (getD_mem _ (by rw [h.lenD]; exact hi))).1
  obtain ⟨s, m, h1, h2, ⟨w, hw, hm⟩, h3⟩ := lpOver_least hL (hg.shape j hj) (hg.rows j hj) (hg.ne j hj) (hg.bounded j hj) (f := ((domAt S i).A.row k).neg) hD
  have val : ∀ w : ℕ → ℝ, ∑ j ∈ range (S.nx + S.nu), ((domAt S i).A.row k).e j * w j = rowVal (domAt S i).A k w := fun w => by
    unfold rowVal
    rw [hD]
    rfl
  refine ⟨-m - (domAt S i).b.e k, ?_, ⟨w, fun j => w (S.nx + j), by rw [pair_self]; exact hw, ?_⟩, ?_⟩
  · unfold domBound
    rw [h1, Py.ok_bind, show Poly.negMin s = .ok (-m) by unfold Poly.negMin; rw [h2], Py.ok_bind]
    rfl
  · rw [pair_self, hm, neg_min_value, val, neg_neg]
  · rintro v ⟨x, u, hxu, rfl⟩
    have := h3 ⟨_, hxu, rfl⟩
    rw [neg_min_value, val] at this
    linarith

theorem dynamics_total {L : Lib} (hL : LibSpec L) {S : PWA} (h : PwaShape S) (hnx : 0 < S.nx) (hg : GoodDomains S) :
    ∃ al be, get_bigM_dynamics L S = .ok (al, be) := by
  have key : ∃ l, S.affine_systems.mapM (bigM_dynamics_i L S) = .ok l := by
    refine mapM_total fun T hT => ?_
    obtain ⟨i, hi, rfl⟩ := List.getElem_of_mem hT
    rw [← List.getD_eq_getElem _ sys0 hi]
    have hi' : i < S.nm := by rw [← h.lenS]; exact hi
    obtain ⟨hT1, hT2, -⟩ := h.sys (sysAt S i) (getD_mem _ hi)
    have eh : np.hstack [(sysAt S i).A, (sysAt S i).B] = .ok ((sysAt S i).A.happ (sysAt S i).B) := by
      show (np.hstack [(sysAt S i).B] >>= fun C => np.hstack2 (sysAt S i).A C) = _
      rw [show np.hstack [(sysAt S i).B] = .ok (sysAt S i).B from rfl, Py.ok_bind]
      exact if_pos (by rw [hT1.1, hT1.2.2.1])
    unfold bigM_dynamics_i
    rw [eh, Py.ok_bind]
    have : ∃ l, ((List.range S.affine_systems.length).mapM fun j => do
        let D ← np.listGet S.domains j
        bigM_dynamics_ij L (sysAt S i) ((sysAt S i).A.happ (sysAt S i).B) D) = .ok l := by
      refine mapM_total fun j hj => ?_
      have hj : j < S.nm := by rw [← h.lenS]; exact List.mem_range.1 hj
      rw [listGet_ok poly0 (by rw [h.lenD]; exact hj), Py.ok_bind]
      unfold bigM_dynamics_ij
      have : ∃ l, (List.range (sysAt S i).nx).mapM (dynBounds L ((sysAt S i).A.happ (sysAt S i).B) (sysAt S i).c (domAt S j)) = .ok l := by
        refine mapM_total fun k hk => ?_
        obtain ⟨a, b, hab, -⟩ := dynBounds_spec hL h hg (k := k) hi' hj
        exact ⟨_, hab⟩
      obtain ⟨l, hl⟩ := this
      have hlen := (mapM_getD hl 0 ((0, 0) : ℝ × ℝ)).1
      rw [List.length_range, hT2] at hlen
      have hne : l ≠ [] := by
        rintro rfl
        simp at hlen
        omega
      obtain ⟨a, ha, -⟩ := column_ok (l := l.map (·.1)) (by simpa using hne)
      obtain ⟨b, hb, -⟩ := column_ok (l := l.map (·.2)) (by simpa using hne)
      exact ⟨(a, b), by rw [hl, Py.ok_bind, ha, Py.ok_bind, hb, Py.ok_bind]; rfl⟩
    obtain ⟨l, hl⟩ := this
    exact ⟨_, by rw [hl, Py.ok_bind]; rfl⟩
  obtain ⟨l, hl⟩ := key
  exact ⟨l.map (·.1), l.map (·.2), by unfold get_bigM_dynamics; rw [hl, Py.ok_bind]; rfl⟩

theorem domains_total {L : Lib} (hL : LibSpec L) {S : PWA} (h : PwaShape S) (hg : GoodDomains S) :
    ∃ ga, get_bigM_domains L S = .ok ga := by
  refine mapM_total fun D hD => mapM_total fun D' hD' => ?_
  obtain ⟨i, hi, rfl⟩ := List.getElem_of_mem hD
  obtain ⟨j, hj, rfl⟩ := List.getElem_of_mem hD'
  rw [← List.getD_eq_getElem _ poly0 hi, ← List.getD_eq_getElem _ poly0 hj]
  have hi' : i < S.nm := by rw [← h.lenD]; exact hi
  have hj' : j < S.nm := by rw [← h.lenD]; exact hj
  unfold bigM_domains_ij
  have : ∃ l, (List.range (domAt S i).A.nr).mapM (domBound L (domAt S i) (domAt S j)) = .ok l := by
    refine mapM_total fun k hk => ?_
    obtain ⟨a, hab, -⟩ := domBound_spec hL h hg (k := k) hi' hj'
    exact ⟨_, hab⟩
  obtain ⟨l, hl⟩ := this
  have hlen := (mapM_getD hl 0 (0 : ℝ)).1
  rw [List.length_range] at hlen
  obtain ⟨a, ha, -⟩ := column_ok (l := l) (by
    rintro rfl
    have := hg.rows i hi'
    rw [List.length_nil] at hlen
    omega)
  exact ⟨a, by
    show (((List.range (domAt S i).A.nr).mapM (domBound L (domAt S i) (domAt S j))) >>= column) = _
    rw [hl, Py.ok_bind]; exact ha⟩

/-- C70: for domains that are nonempty and bounded, the entries `alpha[i][j][k]`, `beta[i][j][k]` are the least and the greatest value of
the `k`-th component of the dynamics of mode `i` over the domain of mode `j`, and `gamma[i][j][k]` is the greatest violation of the `k`-th
inequality of domain `i` over domain `j` (`bm M i j k` reads the entry `k` of the column `M[i][j]`). -/
theorem C70 (L : Lib) (hL : LibSpec L) (S : PWA) (h : PwaShape S) (hnx : 0 < S.nx) (hg : GoodDomains S) :
    ∃ al be ga, get_bigM_dynamics L S = .ok (al, be) ∧ get_bigM_domains L S = .ok ga ∧
      (∀ i < S.nm, ∀ j < S.nm, ∀ k < S.nx,
        IsLeast {v | ∃ x u, InPoly (domAt S j).A (domAt S j).b (domAt S j).C (domAt S j).d (pair S.nx x u) ∧
          v = Spec.affine (sysAt S i).A (sysAt S i).B (sysAt S i).c x u k} (bm al i j k) ∧
        IsGreatest {v | ∃ x u, InPoly (domAt S j).A (domAt S j).b (domAt S j).C (domAt S j).d (pair S.nx x u) ∧
          v = Spec.affine (sysAt S i).A (sysAt S i).B (sysAt S i).c x u k} (bm be i j k)) ∧
      ∀ i < S.nm, ∀ j < S.nm, ∀ k < (domAt S i).A.nr,
        IsGreatest {v | ∃ x u, InPoly (domAt S j).A (domAt S j).b (domAt S j).C (domAt S j).d (pair S.nx x u) ∧
          v = rowVal (domAt S i).A k (pair S.nx x u) - (domAt S i).b.e k} (bm ga i j k) := by
  obtain ⟨al, be, h1⟩ := dynamics_total hL h hnx hg
  obtain ⟨ga, h2⟩ := domains_total hL h hg
  refine ⟨al, be, ga, h1, h2, fun i hi j hj k hk => ?_, fun i hi j hj k hk => ?_⟩
  · obtain ⟨-, -, -, h3⟩ := bigM_dynamics_inv h h1
    obtain ⟨a, b, e1, e2, e3⟩ := dynBounds_spec hL h hg (k := k) hi hj
    rw [h3 i hi j hj k hk] at e1
    obtain ⟨rfl, rfl⟩ := Prod.mk.inj (Except.ok.inj e1)
    exact ⟨e2, e3⟩
  · obtain ⟨-, -, h3⟩ := bigM_domains_inv h h2
    obtain ⟨g, e1, e2⟩ := domBound_spec hL h hg (k := k) hi hj
    rw [h3 i hi j hj k hk] at e1
    cases Except.ok.inj e1
    exact e2

end Verif.Props
