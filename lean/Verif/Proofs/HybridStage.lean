import Verif.Proofs.HybridBuild

/- The inequalities of one stage of the mixed-integer program: what they mean. -/
namespace Verif
namespace Control
open Finset Spec Dyn

/-- the sizes of the data of a piecewise affine system -/
structure PwaShape (S : PWA) : Prop where
  lenS : S.affine_systems.length = S.nm
  lenD : S.domains.length = S.nm
  pos : 0 < S.nm
  sys : ∀ T ∈ S.affine_systems, SystemShape S.nx S.nu T.A T.B T.c ∧ T.nx = S.nx ∧ T.nu = S.nu
  dom : ∀ D ∈ S.domains, D.A.nc = S.nx + S.nu ∧ D.b.n = D.A.nr

/-- the `i`-th affine system -/
noncomputable abbrev sysAt (S : PWA) (i : ℕ) : AffineSystem := S.affine_systems.getD i sys0
/-- the `i`-th domain -/
noncomputable abbrev domAt (S : PWA) (i : ℕ) : Poly := S.domains.getD i poly0

/-- the inequalities (1)-(6) of the documentation of the code -/
def StageRows (S : PWA) (al be ga : List (List (Mat ℝ))) (x u z d : ℕ → ℝ) : Prop :=
  (∀ i < S.nm, ∀ k < S.nx, bm al i i k * d i ≤ z (S.nx * i + k)) ∧
  (∀ i < S.nm, ∀ k < S.nx, z (S.nx * i + k) ≤ bm be i i k * d i) ∧
  (∀ i < S.nm, ∀ k < S.nx, ∑ j ∈ (range S.nm).erase i, bm al i j k * d j
    ≤ Spec.affine (sysAt S i).A (sysAt S i).B (sysAt S i).c x u k - z (S.nx * i + k)) ∧
  (∀ i < S.nm, ∀ k < S.nx, Spec.affine (sysAt S i).A (sysAt S i).B (sysAt S i).c x u k - z (S.nx * i + k)
    ≤ ∑ j ∈ (range S.nm).erase i, bm be i j k * d j) ∧
  (∀ i < S.nm, ∀ k < (domAt S i).A.nr, rowVal (domAt S i).A k (pair S.nx x u)
    ≤ (domAt S i).b.e k + ∑ j ∈ (range S.nm).erase i, bm ga i j k * d j) ∧
  ∑ j ∈ range S.nm, d j = 1

/-- the inequalities (1)-(6), each up to `ε` -/
def StageSlack (S : PWA) (al be ga : List (List (Mat ℝ))) (ε : ℝ) (x u z d : ℕ → ℝ) : Prop :=
  (∀ i < S.nm, ∀ k < S.nx, bm al i i k * d i ≤ z (S.nx * i + k) + ε) ∧
  (∀ i < S.nm, ∀ k < S.nx, z (S.nx * i + k) ≤ bm be i i k * d i + ε) ∧
  (∀ i < S.nm, ∀ k < S.nx, ∑ j ∈ (range S.nm).erase i, bm al i j k * d j
    ≤ Spec.affine (sysAt S i).A (sysAt S i).B (sysAt S i).c x u k - z (S.nx * i + k) + ε) ∧
  (∀ i < S.nm, ∀ k < S.nx, Spec.affine (sysAt S i).A (sysAt S i).B (sysAt S i).c x u k - z (S.nx * i + k)
    ≤ ∑ j ∈ (range S.nm).erase i, bm be i j k * d j + ε) ∧
  (∀ i < S.nm, ∀ k < (domAt S i).A.nr, rowVal (domAt S i).A k (pair S.nx x u)
    ≤ (domAt S i).b.e k + ∑ j ∈ (range S.nm).erase i, bm ga i j k * d j + ε) ∧
  |∑ j ∈ range S.nm, d j - 1| ≤ ε

theorem stageSlack_zero {S : PWA} {al be ga : List (List (Mat ℝ))} {x u z d : ℕ → ℝ} :
    StageSlack S al be ga 0 x u z d ↔ StageRows S al be ga x u z d := by
  unfold StageSlack StageRows
  simp only [add_zero, abs_nonpos_iff, sub_eq_zero]

theorem vstack_two {A B : Mat ℝ} (h : A.nc = B.nc) : np.vstack [A, B] = .ok (A.vapp B) := by
  show (np.vstack [B] >>= fun C => np.vstack2 A C) = _
  rw [show np.vstack [B] = .ok B from rfl, Py.ok_bind]
  exact if_pos h

theorem rowVal_eye {n k : ℕ} (hk : k < n) (x : ℕ → ℝ) : rowVal (Mat.eye n) k x = x k := by
  unfold rowVal Mat.eye
  simp [hk]

theorem rowVal_neg' (A : Mat ℝ) (k : ℕ) (x : ℕ → ℝ) : rowVal A.neg k x = - rowVal A k x := by
  unfold rowVal Mat.neg
  simp [Finset.sum_neg_distrib]

theorem rowVal_zeros (m n k : ℕ) (x : ℕ → ℝ) : rowVal (Mat.zeros m n) k x = 0 := by
  simp [rowVal, Mat.zeros]

/-- the identity (or minus the identity) repeated on the diagonal -/
theorem diagEye {nx s : ℕ} (hs : 0 < s) :
    (np.block_diag (List.replicate s (Mat.eye nx : Mat ℝ))).nr = nx * s ∧
    (np.block_diag (List.replicate s (Mat.eye nx : Mat ℝ))).nc = nx * s ∧
    (np.block_diag (List.replicate s (Mat.eye nx : Mat ℝ).neg)).nr = nx * s ∧
    (np.block_diag (List.replicate s (Mat.eye nx : Mat ℝ).neg)).nc = nx * s ∧
    ∀ i < s, ∀ k < nx, ∀ z : ℕ → ℝ,
      rowVal (np.block_diag (List.replicate s (Mat.eye nx : Mat ℝ))) (nx * i + k) z = z (nx * i + k) ∧
      rowVal (np.block_diag (List.replicate s (Mat.eye nx : Mat ℝ).neg)) (nx * i + k) z = - z (nx * i + k) := by
  have key : ∀ M : Mat ℝ, M.nr = nx → M.nc = nx → (np.block_diag (List.replicate s M)).nr = nx * s ∧
      (np.block_diag (List.replicate s M)).nc = nx * s ∧ ∀ i < s, ∀ k < nx, ∀ z : ℕ → ℝ,
      rowVal (np.block_diag (List.replicate s M)) (nx * i + k) z = rowVal M k (fun j => z (nx * i + j)) := by
    intro M h1 h2
    rw [show np.block_diag (List.replicate s M) = Mat.bdiag (List.replicate s M) from if_neg (by simp; omega)]
    obtain ⟨b1, b2, b3⟩ := bdiag_off (List.replicate s M)
    rw [List.map_replicate] at b1 b2 b3
    rw [h1] at b1 b3
    rw [List.map_replicate] at b3
    rw [h2] at b2 b3
    refine ⟨by rw [b1]; simp [mul_comm], by rw [b2]; simp [mul_comm], fun i hi k hk z => ?_⟩
    have e : (List.replicate s M).getD i mat0 = M := by
      rw [List.getD_eq_getElem _ _ (by simpa using hi), List.getElem_replicate]
    have := b3 i (by simpa using hi) k (by rw [e, h1]; exact hk) z
    rw [off_replicate nx s i hi.le, e] at this
    exact this
  obtain ⟨a1, a2, a3⟩ := key (Mat.eye nx) rfl rfl
  obtain ⟨b1, b2, b3⟩ := key (Mat.eye nx).neg rfl rfl
  exact ⟨a1, a2, b1, b2, fun i hi k hk z => ⟨by rw [a3 i hi k hk, rowVal_eye hk],
    by rw [b3 i hi k hk, rowVal_neg', rowVal_eye hk]⟩⟩

/-- the blocks of `E['x']` or `E['u']` -/
theorem ineqXU_ok {nx s n : ℕ} {M F : List (Mat ℝ)} (hs : 0 < s) (hM : M.length = s) (hF : F.length = s)
    (cM : ∀ A ∈ M, A.nr = nx ∧ A.nc = n) (cF : ∀ A ∈ F, A.nc = n) :
    ∃ m1 m2 f, ineqXU (nx * s) n M F = np.vstack [Mat.zeros (nx * s) n, Mat.zeros (nx * s) n, m1, m2, f, Mat.zeros 2 n] ∧
      (m1.nr = nx * s ∧ m1.nc = n) ∧ (m2.nr = nx * s ∧ m2.nc = n) ∧ (f.nr = (F.map (·.nr)).sum ∧ f.nc = n) ∧
      (∀ i < s, ∀ k < nx, ∀ x, rowVal m1 (nx * i + k) x = - rowVal (M.getD i mat0) k x ∧
        rowVal m2 (nx * i + k) x = rowVal (M.getD i mat0) k x) ∧
      ∀ i < s, ∀ k < (F.getD i mat0).nr, ∀ x, rowVal f (off (F.map (·.nr)) i + k) x = rowVal (F.getD i mat0) k x := by
  have ne : ∀ L : List (Mat ℝ), L.length = s → L ≠ [] := by
    rintro L hL rfl
    simp at hL
    omega
  obtain ⟨m1, a1, a2, a3, a4⟩ := vstack_row (l := M.map Mat.neg) (n := n) (ne _ (by simpa using hM)) (by
    intro A hA
    obtain ⟨B, hB, rfl⟩ := List.mem_map.1 hA
    exact (cM B hB).2)
  obtain ⟨m2, b1, b2, b3, b4⟩ := vstack_row (l := M) (n := n) (ne _ hM) (fun A hA => (cM A hA).2)
  obtain ⟨f, c1, c2, c3, c4⟩ := vstack_row (l := F) (n := n) (ne _ hF) cF
  have e : (M.map Mat.neg).map (·.nr) = M.map (·.nr) := by
    rw [List.map_map]
    rfl
  have hn : ∀ m ∈ M.map (·.nr), m = nx := by
    intro m hm
    obtain ⟨A, hA, rfl⟩ := List.mem_map.1 hm
    exact (cM A hA).1
  rw [e] at a2 a4
  rw [sum_const hn, List.length_map, hM] at a2 b2
  refine ⟨m1, m2, f, ?_, ⟨a2, a3⟩, ⟨b2, b3⟩, ⟨c2, c3⟩, fun i hi k hk x => ?_, fun i hi k hk x => c4 i (by rw [hF]; exact hi) k hk x⟩
  · unfold ineqXU
    rw [a1, Py.ok_bind, b1, Py.ok_bind, c1, Py.ok_bind]
  · have hi' : i < M.length := by rw [hM]; exact hi
    have hk' : k < (M.getD i mat0).nr := by rw [(cM _ (getD_mem mat0 hi')).1]; exact hk
    have e2 : (M.map Mat.neg).getD i mat0 = (M.getD i mat0).neg := getD_map' hi' Mat.neg mat0 mat0
    have o : off (M.map (·.nr)) i = nx * i := off_const hn i (by rw [List.length_map]; exact hi'.le)
    have h1 := a4 i (by rw [List.length_map]; exact hi') k (by rw [e2]; exact hk') x
    have h2 := b4 i hi' k hk' x
    rw [o] at h1 h2
    rw [h1, h2, e2, rowVal_neg']
    exact ⟨rfl, rfl⟩

theorem ineq0_ok {nx s : ℕ} {c b : List (Vec ℝ)} (hs : 0 < s) (hc : c.length = s) (hb : b.length = s) (cc : ∀ v ∈ c, v.n = nx) :
    ∃ c1 c2 b1, ineq0 (nx * s) c b = np.concatenate [Vec.zeros (nx * s), Vec.zeros (nx * s), c1, c2, b1, Vec.ofList [1, -1]] ∧
      c1.n = nx * s ∧ c2.n = nx * s ∧ b1.n = (b.map (·.n)).sum ∧
      (∀ i < s, ∀ k < nx, c1.e (nx * i + k) = (c.getD i vec0).e k ∧ c2.e (nx * i + k) = - (c.getD i vec0).e k) ∧
      ∀ i < s, ∀ k < (b.getD i vec0).n, b1.e (off (b.map (·.n)) i + k) = (b.getD i vec0).e k := by
  have ne : ∀ L : List (Vec ℝ), L.length = s → L ≠ [] := by
    rintro L hL rfl
    simp at hL
    omega
  have hn : ∀ m ∈ c.map (·.n), m = nx := by
    intro m hm
    obtain ⟨A, hA, rfl⟩ := List.mem_map.1 hm
    exact cc A hA
  have e : (c.map Vec.neg).map (·.n) = c.map (·.n) := by
    rw [List.map_map]
    rfl
  obtain ⟨a1, a2⟩ := concat_off c
  obtain ⟨b1, b2⟩ := concat_off (c.map Vec.neg)
  obtain ⟨d1, d2⟩ := concat_off b
  rw [e] at b1 b2
  rw [sum_const hn, List.length_map, hc] at a1 b1
  refine ⟨Vec.concat c, Vec.concat (c.map Vec.neg), Vec.concat b, ?_, a1, b1, d1, fun i hi k hk => ?_, fun i hi k hk => d2 i (by rw [hb]; exact hi) k hk⟩
  · unfold ineq0
    rw [show np.concatenate c = .ok (Vec.concat c) from if_neg (ne _ hc), Py.ok_bind,
      show np.concatenate (c.map Vec.neg) = .ok (Vec.concat (c.map Vec.neg)) from if_neg (ne _ (by simpa using hc)), Py.ok_bind,
      show np.concatenate b = .ok (Vec.concat b) from if_neg (ne _ hb), Py.ok_bind]
  · have hi' : i < c.length := by rw [hc]; exact hi
    have hk' : k < (c.getD i vec0).n := by rw [cc _ (getD_mem vec0 hi')]; exact hk
    have e2 : (c.map Vec.neg).getD i vec0 = (c.getD i vec0).neg := getD_map' hi' Vec.neg vec0 vec0
    have o : off (c.map (·.n)) i = nx * i := off_const hn i (by rw [List.length_map]; exact hi'.le)
    have h1 := a2 i hi' k hk'
    have h2 := b2 i (by rw [List.length_map]; exact hi') k (by rw [e2]; exact hk')
    rw [o] at h1 h2
    rw [h1, h2, e2]
    exact ⟨rfl, rfl⟩

theorem forall_lt_six {p : ℕ → Prop} : (∀ i < 6, p i) ↔ p 0 ∧ p 1 ∧ p 2 ∧ p 3 ∧ p 4 ∧ p 5 := by
  constructor
  · intro h
    exact ⟨h 0 (by omega), h 1 (by omega), h 2 (by omega), h 3 (by omega), h 4 (by omega), h 5 (by omega)⟩
  · rintro ⟨h0, h1, h2, h3, h4, h5⟩ i hi
    interval_cases i <;> assumption

theorem forall_mul {nx s : ℕ} (p : ℕ → Prop) : (∀ r < nx * s, p r) ↔ ∀ i < s, ∀ k < nx, p (nx * i + k) := by
  have := forall_off (List.replicate s nx) p
  rw [show (List.replicate s nx).sum = nx * s by simp [mul_comm], List.length_replicate] at this
  rw [this]
  refine forall_congr' fun i => forall_congr' fun hi => ?_
  rw [off_replicate nx s i hi.le, List.getD_eq_getElem _ _ (by simpa using hi), List.getElem_replicate]

theorem build_ok {S : PWA} (h : PwaShape S) {al be ga : List (List (Mat ℝ))} {na : List ℕ} (hna : na = List.replicate S.nm S.nx)
    {ng : List ℕ} (hng : ng = S.domains.map fun D => D.A.nr)
    (ha : IsBigM S.nm na al) (hb : IsBigM S.nm na be) (hg : IsBigM S.nm ng ga) :
    ∃ E n, build_inequalities S al be ga = .ok E ∧ (E.x.nr = n ∧ E.x.nc = S.nx) ∧ (E.u.nr = n ∧ E.u.nc = S.nu) ∧
      (E.z.nr = n ∧ E.z.nc = S.nx * S.nm) ∧ (E.d.nr = n ∧ E.d.nc = S.nm) ∧ E.h.n = n ∧
      ∀ (ε : ℝ) (x u z d : ℕ → ℝ), (∀ r < n, rowVal E.x r x + rowVal E.u r u + rowVal E.z r z + rowVal E.d r d ≤ E.h.e r + ε) ↔
        StageSlack S al be ga ε x u z d := by
  have hsum : na.sum = S.nx * S.nm := by rw [hna]; simp [mul_comm]
  have hoff : ∀ i < S.nm, off na i = S.nx * i := fun i hi => by rw [hna, off_replicate _ _ _ hi.le]
  have hget : ∀ i < S.nm, na.getD i 0 = S.nx := fun i hi => by
    rw [hna, List.getD_eq_getElem _ _ (by simpa using hi), List.getElem_replicate]
  have hsys : ∀ i < S.nm, sysAt S i ∈ S.affine_systems := fun i hi => getD_mem _ (by rw [h.lenS]; exact hi)
  have hdom : ∀ i < S.nm, domAt S i ∈ S.domains := fun i hi => getD_mem _ (by rw [h.lenD]; exact hi)
  have gmap : ∀ (f : AffineSystem → Mat ℝ), ∀ i < S.nm, (S.affine_systems.map f).getD i mat0 = f (sysAt S i) :=
    fun f i hi => getD_map' (by rw [h.lenS]; exact hi) f sys0 mat0
  have dmap : ∀ (f : Poly → Mat ℝ), ∀ i < S.nm, (S.domains.map f).getD i mat0 = f (domAt S i) :=
    fun f i hi => getD_map' (by rw [h.lenD]; exact hi) f poly0 mat0
  -- the blocks
  obtain ⟨x1, x2, x3, xr, ⟨x1r, x1c⟩, ⟨x2r, x2c⟩, ⟨x3r, x3c⟩, xe, xf⟩ := ineqXU_ok (nx := S.nx) (n := S.nx)
    (M := S.affine_systems.map (·.A)) (F := S.domains.map fun D => D.A.colsTo S.nx) h.pos (by simpa using h.lenS) (by simpa using h.lenD)
    (by
      intro A hA
      obtain ⟨T, hT, rfl⟩ := List.mem_map.1 hA
      exact ⟨(h.sys T hT).1.1, (h.sys T hT).1.2.1⟩)
    (by
      intro A hA
      obtain ⟨D, hD, rfl⟩ := List.mem_map.1 hA
      show min S.nx D.A.nc = S.nx
      rw [(h.dom D hD).1]; omega)
  obtain ⟨u1, u2, u3, ur, ⟨u1r, u1c⟩, ⟨u2r, u2c⟩, ⟨u3r, u3c⟩, ue, uf⟩ := ineqXU_ok (nx := S.nx) (n := S.nu)
    (M := S.affine_systems.map (·.B)) (F := S.domains.map fun D => D.A.colsFrom S.nx) h.pos (by simpa using h.lenS) (by simpa using h.lenD)
    (by
      intro A hA
      obtain ⟨T, hT, rfl⟩ := List.mem_map.1 hA
      exact ⟨(h.sys T hT).1.2.2.1, (h.sys T hT).1.2.2.2.1⟩)
    (by
      intro A hA
      obtain ⟨D, hD, rfl⟩ := List.mem_map.1 hA
      show D.A.nc - S.nx = S.nu
      rw [(h.dom D hD).1]; omega)
  have mx : (S.domains.map fun D => D.A.colsTo S.nx).map (·.nr) = ng := by rw [hng, List.map_map]; rfl
  have mu : (S.domains.map fun D => D.A.colsFrom S.nx).map (·.nr) = ng := by rw [hng, List.map_map]; rfl
  have mb : (S.domains.map (·.b)).map (·.n) = ng := by
    rw [hng, List.map_map]
    exact List.map_congr_left fun D hD => (h.dom D hD).2
  rw [mx] at x3r xf
  rw [mu] at u3r uf
  obtain ⟨c1, c2, b1, h0, c1n, c2n, b1n, ce, bf⟩ := ineq0_ok (nx := S.nx) (c := S.affine_systems.map (·.c)) (b := S.domains.map (·.b)) h.pos
    (by simpa using h.lenS) (by simpa using h.lenD) (by
      intro v hv
      obtain ⟨T, hT, rfl⟩ := List.mem_map.1 hv
      exact (h.sys T hT).1.2.2.2.2)
  rw [mb] at b1n bf
  obtain ⟨z1, z2, z3, z4, ze⟩ := diagEye (nx := S.nx) h.pos
  obtain ⟨da, a1, a2, a3, a4⟩ := diagonal_ok ha h.pos
  obtain ⟨db, e1, e2, e3, e4⟩ := diagonal_ok hb h.pos
  obtain ⟨Ma, f1, f2, f3, f4⟩ := bigM_matrices_ok ha h.pos
  obtain ⟨Mb, g1, g2, g3, g4⟩ := bigM_matrices_ok hb h.pos
  obtain ⟨Mg, i1, i2, i3, i4⟩ := bigM_matrices_ok hg h.pos
  rw [hsum] at a2 e2 f2 g2
  have o1 : np.vstack [Mat.ones 1 S.nm, (Mat.ones 1 S.nm : Mat ℝ).neg] = .ok ((Mat.ones 1 S.nm).vapp (Mat.ones 1 S.nm : Mat ℝ).neg) :=
    vstack_two rfl
  have hD : ineqD S.nm al be ga = np.vstack [np.block_diag da, (np.block_diag db).neg, Ma, Mb.neg, Mg.neg,
      (Mat.ones 1 S.nm).vapp (Mat.ones 1 S.nm : Mat ℝ).neg] := by
    unfold ineqD
    rw [a1, Py.ok_bind, e1, Py.ok_bind, f1, Py.ok_bind, g1, Py.ok_bind, i1, Py.ok_bind, o1, Py.ok_bind]
  have hngsum : (S.domains.map fun D => D.A.nr).sum = ng.sum := by rw [hng]
  -- the stacks
  obtain ⟨X, U, Z, D, k1, k2, k3, k4, k5, kX, kU, kZ, kD, kh, kk⟩ := holds_off (a := S.nx) (b := S.nu) (c := S.nx * S.nm) (e := S.nm)
    (ns := [S.nx * S.nm, S.nx * S.nm, S.nx * S.nm, S.nx * S.nm, ng.sum, 2])
    (Lx := [Mat.zeros (S.nx * S.nm) S.nx, Mat.zeros (S.nx * S.nm) S.nx, x1, x2, x3, Mat.zeros 2 S.nx])
    (Lu := [Mat.zeros (S.nx * S.nm) S.nu, Mat.zeros (S.nx * S.nm) S.nu, u1, u2, u3, Mat.zeros 2 S.nu])
    (Lz := [np.block_diag (List.replicate S.nm (Mat.eye S.nx : Mat ℝ).neg), np.block_diag (List.replicate S.nm (Mat.eye S.nx : Mat ℝ)),
      np.block_diag (List.replicate S.nm (Mat.eye S.nx : Mat ℝ)), np.block_diag (List.replicate S.nm (Mat.eye S.nx : Mat ℝ).neg),
      Mat.zeros (S.domains.map fun D => D.A.nr).sum (S.nx * S.nm), Mat.zeros 2 (S.nx * S.nm)])
    (Ld := [np.block_diag da, (np.block_diag db).neg, Ma, Mb.neg, Mg.neg, (Mat.ones 1 S.nm).vapp (Mat.ones 1 S.nm : Mat ℝ).neg])
    (Lh := [Vec.zeros (S.nx * S.nm), Vec.zeros (S.nx * S.nm), c1, c2, b1, Vec.ofList [1, -1]])
    (by simp)
    (by simp [Mat.zeros, x1r, x2r, x3r])
    (by simp [Mat.zeros, u1r, u2r, u3r])
    (by simp [Mat.zeros, z1, z3, hngsum])
    (by simp [Mat.neg, Mat.vapp, Mat.ones, a2, e2, f2, g2, i2])
    (by simp [Vec.zeros, Vec.ofList, c1n, c2n, b1n])
    (by
      intro A hA
      simp only [List.mem_cons, List.not_mem_nil, or_false] at hA
      rcases hA with rfl | rfl | rfl | rfl | rfl | rfl <;> first | rfl | assumption)
    (by
      intro A hA
      simp only [List.mem_cons, List.not_mem_nil, or_false] at hA
      rcases hA with rfl | rfl | rfl | rfl | rfl | rfl <;> first | rfl | assumption)
    (by
      intro A hA
      simp only [List.mem_cons, List.not_mem_nil, or_false] at hA
      rcases hA with rfl | rfl | rfl | rfl | rfl | rfl <;> first | rfl | assumption)
    (by
      intro A hA
      simp only [List.mem_cons, List.not_mem_nil, or_false] at hA
      rcases hA with rfl | rfl | rfl | rfl | rfl | rfl <;> first | rfl | assumption)
  refine ⟨⟨X, U, Z, D, _⟩, _, ?_, kX, kU, kZ, kD, kh, fun ε x u z d => ?_⟩
  · unfold build_inequalities
    simp only
    rw [xr, k1, Py.ok_bind, ur, k2, Py.ok_bind, show ineqZ S.nx S.nm _ = .ok Z from k3, Py.ok_bind, hD, k4, Py.ok_bind, h0, k5, Py.ok_bind]
    rfl
  · refine (kk ε x u z d).trans ?_
    rw [show [S.nx * S.nm, S.nx * S.nm, S.nx * S.nm, S.nx * S.nm, ng.sum, 2].length = 6 from rfl, forall_lt_six]
    simp only [List.getD_cons_zero, List.getD_cons_succ]
    unfold StageSlack
    have aff : ∀ i < S.nm, ∀ k < S.nx, Spec.affine (sysAt S i).A (sysAt S i).B (sysAt S i).c x u k
        = rowVal (sysAt S i).A k x + rowVal (sysAt S i).B k u + (sysAt S i).c.e k := fun i hi k hk => rfl
    have cget : ∀ i < S.nm, (S.affine_systems.map (·.c)).getD i vec0 = (sysAt S i).c :=
      fun i hi => getD_map' (by rw [h.lenS]; exact hi) (·.c) sys0 vec0
    have bget : ∀ i < S.nm, (S.domains.map (·.b)).getD i vec0 = (domAt S i).b :=
      fun i hi => getD_map' (by rw [h.lenD]; exact hi) (·.b) poly0 vec0
    have ngget : ∀ i < S.nm, ng.getD i 0 = (domAt S i).A.nr := fun i hi => by
      rw [hng]
      exact getD_map' (by rw [h.lenD]; exact hi) (fun D : Poly => D.A.nr) poly0 0
    refine and_congr ?_ (and_congr ?_ (and_congr ?_ (and_congr ?_ (and_congr ?_ ?_))))
    · rw [forall_mul]
      refine forall_congr' fun i => forall_congr' fun hi => forall_congr' fun k => forall_congr' fun hk => ?_
      have := a4 i hi k (by rw [hget i hi]; exact hk) d
      rw [hoff i hi] at this
      rw [this, (ze i hi k hk z).2, rowVal_zeros, rowVal_zeros]
      show _ ≤ (0 : ℝ) + ε ↔ _
      constructor <;> intro _ <;> linarith
    · rw [forall_mul]
      refine forall_congr' fun i => forall_congr' fun hi => forall_congr' fun k => forall_congr' fun hk => ?_
      have := e4 i hi k (by rw [hget i hi]; exact hk) d
      rw [hoff i hi] at this
      rw [rowVal_neg', this, (ze i hi k hk z).1, rowVal_zeros, rowVal_zeros]
      show _ ≤ (0 : ℝ) + ε ↔ _
      constructor <;> intro _ <;> linarith
    · rw [forall_mul]
      refine forall_congr' fun i => forall_congr' fun hi => forall_congr' fun k => forall_congr' fun hk => ?_
      have := f4 i hi k (by rw [hget i hi]; exact hk) d
      rw [hoff i hi] at this
      rw [this, (ze i hi k hk z).1, (xe i hi k hk x).1, (ue i hi k hk u).1, (ce i hi k hk).1, gmap _ i hi, gmap _ i hi, cget i hi, aff i hi k hk]
      constructor <;> intro _ <;> linarith
    · rw [forall_mul]
      refine forall_congr' fun i => forall_congr' fun hi => forall_congr' fun k => forall_congr' fun hk => ?_
      have := g4 i hi k (by rw [hget i hi]; exact hk) d
      rw [hoff i hi] at this
      rw [rowVal_neg', this, (ze i hi k hk z).2, (xe i hi k hk x).2, (ue i hi k hk u).2, (ce i hi k hk).2, gmap _ i hi, gmap _ i hi, cget i hi, aff i hi k hk]
      constructor <;> intro _ <;> linarith
    · rw [forall_off, hg.lns]
      refine forall_congr' fun i => forall_congr' fun hi => ?_
      rw [ngget i hi]
      refine forall_congr' fun k => forall_congr' fun hk => ?_
      have := i4 i hi k (by rw [ngget i hi]; exact hk) d
      rw [rowVal_neg', this, rowVal_zeros, xf i hi k (by rw [dmap _ i hi]; exact hk) x, uf i hi k (by rw [dmap _ i hi]; exact hk) u,
        bf i hi k (by rw [bget i hi, (h.dom _ (hdom i hi)).2]; exact hk), dmap _ i hi, dmap _ i hi, bget i hi,
        ← rowVal_cols (h.dom _ (hdom i hi)).1]
      constructor <;> intro _ <;> linarith
    · have r0 : rowVal ((Mat.ones 1 S.nm).vapp (Mat.ones 1 S.nm : Mat ℝ).neg) 0 d = ∑ j ∈ range S.nm, d j := by
        unfold rowVal
        exact Finset.sum_congr rfl fun j _ => by simp [Mat.vapp, Mat.ones]
      have r1 : rowVal ((Mat.ones 1 S.nm).vapp (Mat.ones 1 S.nm : Mat ℝ).neg) 1 d = - ∑ j ∈ range S.nm, d j := by
        unfold rowVal
        rw [← Finset.sum_neg_distrib]
        exact Finset.sum_congr rfl fun j _ => by simp [Mat.vapp, Mat.ones, Mat.neg]
      rw [abs_le]
      constructor
      · intro hk
        have h0 := hk 0 (by omega)
        have h1 := hk 1 (by omega)
        rw [r0, rowVal_zeros, rowVal_zeros, rowVal_zeros] at h0
        rw [r1, rowVal_zeros, rowVal_zeros, rowVal_zeros] at h1
        simp [Vec.ofList] at h0 h1
        constructor <;> linarith
      · rintro ⟨hk, hk'⟩ k hk2
        interval_cases k
        · rw [r0, rowVal_zeros, rowVal_zeros, rowVal_zeros]
          simp [Vec.ofList]
          linarith
        · rw [r1, rowVal_zeros, rowVal_zeros, rowVal_zeros]
          simp [Vec.ofList]
          linarith

end Control
end Verif
