import Verif.Proofs.HybridStage
import Verif.Spec.Hybrid

/- The condensed mixed-integer program: what its constraints and its objective mean. -/
namespace Verif
namespace Control
open Finset Spec Dyn

/-- the states in the point `z` of the program: `x(0) = x0` and `x(t+1) = z_0(t) + ... + z_{s-1}(t)` -/
def zState (nx s : ℕ) (x0 z : ℕ → ℝ) : ℕ → ℕ → ℝ
  | 0 => x0
  | t + 1 => fun k => ∑ i ∈ range s, z (nx * s * t + (nx * i + k))

theorem off_append_le {l l' : List ℕ} {i : ℕ} (h : i ≤ l.length) : off (l ++ l') i = off l i := by
  unfold off
  rw [List.take_append_of_le_length h]

theorem getD_rep_lt {α : Type} {N t : ℕ} (h : t < N) (a b e : α) : (List.replicate N a ++ [b]).getD t e = a := by
  rw [List.getD_append _ _ _ _ (by simpa using h), List.getD_eq_getElem _ _ (by simpa using h), List.getElem_replicate]

theorem getD_rep_last {α : Type} (N : ℕ) (a b e : α) : (List.replicate N a ++ [b]).getD N e = b := by
  rw [List.getD_append_right _ _ _ _ (by simp)]
  simp

theorem bdiag_rep_tail {A B : Mat ℝ} {n c N : ℕ} (hr : A.nr = n) (hc : A.nc = c) :
    (Mat.bdiag (List.replicate N A ++ [B])).nr = n * N + B.nr ∧ (Mat.bdiag (List.replicate N A ++ [B])).nc = c * N + B.nc ∧
    (∀ t < N, ∀ k < n, ∀ y, rowVal (Mat.bdiag (List.replicate N A ++ [B])) (n * t + k) y = rowVal A k (fun j => y (c * t + j))) ∧
    ∀ k < B.nr, ∀ y, rowVal (Mat.bdiag (List.replicate N A ++ [B])) (n * N + k) y = rowVal B k (fun j => y (c * N + j)) := by
  obtain ⟨h1, h2, h3⟩ := bdiag_off (List.replicate N A ++ [B])
  rw [List.map_append, List.map_replicate, List.map_singleton, hr] at h1 h3
  rw [List.map_append, List.map_replicate, List.map_singleton, hc] at h2 h3
  refine ⟨by rw [h1]; simp [mul_comm], by rw [h2]; simp [mul_comm], fun t ht k hk y => ?_, fun k hk y => ?_⟩
  · have := h3 t (by simp; omega) k (by rw [getD_rep_lt ht, hr]; exact hk) y
    rwa [off_append_le (by simp; omega), off_append_le (by simp; omega), off_replicate _ _ _ ht.le, off_replicate _ _ _ ht.le,
      getD_rep_lt ht] at this
  · have := h3 N (by simp) k (by rw [getD_rep_last]; exact hk) y
    rwa [off_append_le (by simp), off_append_le (by simp), off_replicate _ _ _ le_rfl, off_replicate _ _ _ le_rfl,
      getD_rep_last] at this

theorem bdiag_rep {A : Mat ℝ} {n c N : ℕ} (hr : A.nr = n) (hc : A.nc = c) :
    (Mat.bdiag (List.replicate N A)).nr = n * N ∧ (Mat.bdiag (List.replicate N A)).nc = c * N ∧
    ∀ t < N, ∀ k < n, ∀ y, rowVal (Mat.bdiag (List.replicate N A)) (n * t + k) y = rowVal A k (fun j => y (c * t + j)) := by
  obtain ⟨h1, h2, h3⟩ := bdiag_off (List.replicate N A)
  rw [List.map_replicate, hr] at h1 h3
  rw [List.map_replicate, hc] at h2 h3
  refine ⟨by rw [h1]; simp [mul_comm], by rw [h2]; simp [mul_comm], fun t ht k hk y => ?_⟩
  have e : (List.replicate N A).getD t mat0 = A := by
    rw [List.getD_eq_getElem _ _ (by simpa using ht), List.getElem_replicate]
  have := h3 t (by simpa using ht) k (by rw [e, hr]; exact hk) y
  rwa [off_replicate _ _ _ ht.le, off_replicate _ _ _ ht.le, e] at this

theorem concat_rep_tail {v b : Vec ℝ} {n N : ℕ} (hv : v.n = n) :
    (Vec.concat (List.replicate N v ++ [b])).n = n * N + b.n ∧
    (∀ t < N, ∀ k < n, (Vec.concat (List.replicate N v ++ [b])).e (n * t + k) = v.e k) ∧
    ∀ k < b.n, (Vec.concat (List.replicate N v ++ [b])).e (n * N + k) = b.e k := by
  obtain ⟨h1, h3⟩ := concat_off (List.replicate N v ++ [b])
  rw [List.map_append, List.map_replicate, List.map_singleton, hv] at h1 h3
  refine ⟨by rw [h1]; simp [mul_comm], fun t ht k hk => ?_, fun k hk => ?_⟩
  · have := h3 t (by simp; omega) k (by rw [getD_rep_lt ht, hv]; exact hk)
    rwa [off_append_le (by simp; omega), off_replicate _ _ _ ht.le, getD_rep_lt ht] at this
  · have := h3 N (by simp) k (by rw [getD_rep_last]; exact hk)
    rwa [off_append_le (by simp), off_replicate _ _ _ le_rfl, getD_rep_last] at this

theorem rowVal_vapp_lt {A B : Mat ℝ} {r : ℕ} (h : r < A.nr) (x : ℕ → ℝ) : rowVal (A.vapp B) r x = rowVal A r x := by
  unfold rowVal
  exact Finset.sum_congr rfl fun j _ => by rw [Mat.vapp_e_lt _ _ _ h]

theorem rowVal_vapp_add {A B : Mat ℝ} (hc : A.nc = B.nc) (r : ℕ) (x : ℕ → ℝ) : rowVal (A.vapp B) (A.nr + r) x = rowVal B r x := by
  unfold rowVal
  show ∑ j ∈ range A.nc, _ = _
  rw [hc]
  exact Finset.sum_congr rfl fun j _ => by rw [Mat.vapp_e_add]

/-- a block diagonal matrix with zeros below -/
theorem pad_ok {A : Mat ℝ} {n c N m : ℕ} (hN : 0 < N) (hr : A.nr = n) (hc : A.nc = c) :
    ∃ M, np.vstack [np.block_diag (List.replicate N A), Mat.zeros m (np.block_diag (List.replicate N A)).nc] = .ok M ∧
      M.nr = n * N + m ∧ M.nc = c * N ∧
      (∀ t < N, ∀ k < n, ∀ y, rowVal M (n * t + k) y = rowVal A k (fun j => y (c * t + j))) ∧
      ∀ k < m, ∀ y, rowVal M (n * N + k) y = 0 := by
  rw [show np.block_diag (List.replicate N A) = Mat.bdiag (List.replicate N A) from if_neg (by simp; omega)]
  obtain ⟨b1, b2, b3⟩ := bdiag_rep (N := N) hr hc
  refine ⟨_, vstack_two rfl, ?_, b2, fun t ht k hk y => ?_, fun k hk y => ?_⟩
  · show _ + m = _
    rw [b1]
  · rw [rowVal_vapp_lt (by rw [b1]; have := blk_le (m := n) ht; omega), b3 t ht k hk]
  · rw [← b1, rowVal_vapp_add (by rfl), rowVal_zeros]

theorem condense_ineq_ok {E : Ineqs} {X_N : Poly} {n a b c e N : ℕ} (hN : 0 < N) (hx : E.x.nr = n ∧ E.x.nc = a) (hu : E.u.nr = n ∧ E.u.nc = b)
    (hz : E.z.nr = n ∧ E.z.nc = c) (hd : E.d.nr = n ∧ E.d.nc = e) (hh : E.h.n = n) (hX : X_N.A.nc = a ∧ X_N.b.n = X_N.A.nr) :
    ∃ E', condense_inequalities N X_N E = .ok E' ∧ (E'.x.nr = n * N + X_N.A.nr ∧ E'.x.nc = a * (N + 1)) ∧
      (E'.u.nr = n * N + X_N.A.nr ∧ E'.u.nc = b * N) ∧ (E'.z.nr = n * N + X_N.A.nr ∧ E'.z.nc = c * N) ∧
      (E'.d.nr = n * N + X_N.A.nr ∧ E'.d.nc = e * N) ∧ E'.h.n = n * N + X_N.A.nr ∧
      ∀ (ε : ℝ) (y u z d : ℕ → ℝ), (∀ r < n * N + X_N.A.nr, rowVal E'.x r y + rowVal E'.u r u + rowVal E'.z r z + rowVal E'.d r d ≤ E'.h.e r + ε) ↔
        (∀ t < N, ∀ r < n, rowVal E.x r (fun j => y (a * t + j)) + rowVal E.u r (fun j => u (b * t + j)) + rowVal E.z r (fun j => z (c * t + j))
          + rowVal E.d r (fun j => d (e * t + j)) ≤ E.h.e r + ε) ∧
        ∀ r < X_N.A.nr, rowVal X_N.A r (fun j => y (a * N + j)) ≤ X_N.b.e r + ε := by
  obtain ⟨U, u1, u2, u3, u4, u5⟩ := pad_ok (m := X_N.A.nr) hN hu.1 hu.2
  obtain ⟨Z, z1, z2, z3, z4, z5⟩ := pad_ok (m := X_N.A.nr) hN hz.1 hz.2
  obtain ⟨D, d1, d2, d3, d4, d5⟩ := pad_ok (m := X_N.A.nr) hN hd.1 hd.2
  obtain ⟨x1, x2, x3, x4⟩ := bdiag_rep_tail (B := X_N.A) (N := N) hx.1 hx.2
  obtain ⟨h1, h2, h3⟩ := concat_rep_tail (b := X_N.b) (N := N) hh
  have ebd : np.block_diag (List.replicate N E.x ++ [X_N.A]) = Mat.bdiag (List.replicate N E.x ++ [X_N.A]) := if_neg (by simp)
  have ecc : np.concatenate (List.replicate N E.h ++ [X_N.b]) = .ok (Vec.concat (List.replicate N E.h ++ [X_N.b])) := if_neg (by simp)
  refine ⟨⟨Mat.bdiag (List.replicate N E.x ++ [X_N.A]), U, Z, D, Vec.concat (List.replicate N E.h ++ [X_N.b])⟩, ?_, ⟨x1, ?_⟩, ⟨u2, u3⟩, ⟨z2, z3⟩, ⟨d2, d3⟩, ?_,
    fun ε y u z d => ?_⟩
  · unfold condense_inequalities
    simp only
    rw [u1, Py.ok_bind, z1, Py.ok_bind, d1, Py.ok_bind, ecc, Py.ok_bind, ebd]
    rfl
  · rw [x2, hX.1]; ring
  · rw [h1, hX.2]
  · rw [forall_lt_add, forall_mul]
    refine and_congr ?_ ?_
    · refine forall_congr' fun t => forall_congr' fun ht => forall_congr' fun k => forall_congr' fun hk => ?_
      rw [x3 t ht k hk, u4 t ht k hk, z4 t ht k hk, d4 t ht k hk, h2 t ht k hk]
    · refine forall_congr' fun k => forall_congr' fun hk => ?_
      rw [x4 k hk, u5 k hk, z5 k hk, d5 k hk, h3 k (by rw [hX.2]; exact hk)]
      simp only [add_zero]

theorem hstack_eye {nx : ℕ} : ∀ {s : ℕ}, 0 < s → ∃ M, np.hstack (List.replicate s (Mat.eye nx : Mat ℝ)) = .ok M ∧ M.nr = nx ∧ M.nc = nx * s ∧
    ∀ k < nx, ∀ z, rowVal M k z = ∑ i ∈ range s, z (nx * i + k)
  | 0, h => absurd h (by omega)
  | 1, _ => ⟨Mat.eye nx, rfl, rfl, by simp [Mat.eye], fun k hk z => by rw [rowVal_eye hk]; simp⟩
  | s + 2, _ => by
    obtain ⟨M, h1, h2, h3, h4⟩ := hstack_eye (nx := nx) (s := s + 1) (by omega)
    refine ⟨(Mat.eye nx).happ M, ?_, rfl, ?_, fun k hk z => ?_⟩
    · show (np.hstack (List.replicate (s + 1) (Mat.eye nx : Mat ℝ)) >>= fun C => np.hstack2 (Mat.eye nx) C) = _
      rw [h1, Py.ok_bind]
      exact if_pos h2.symm
    · show nx + M.nc = _
      rw [h3]; ring
    · unfold rowVal
      rw [show ((Mat.eye nx : Mat ℝ).happ M).nc = nx + M.nc from rfl, Finset.sum_range_add, Finset.sum_range_succ']
      have a1 : ∑ j ∈ range nx, ((Mat.eye nx : Mat ℝ).happ M).e k j * z j = z k := by
        rw [← rowVal_eye hk z]
        unfold rowVal
        exact Finset.sum_congr rfl fun j hj => by rw [Mat.happ_e_lt _ _ _ (by exact mem_range.1 hj)]
      have a2 : ∑ j ∈ range M.nc, ((Mat.eye nx : Mat ℝ).happ M).e k (nx + j) * z (nx + j) = rowVal M k (fun j => z (nx + j)) := by
        unfold rowVal
        refine Finset.sum_congr rfl fun j hj => ?_
        have := Mat.happ_e_add (Mat.eye nx) M k j
        rw [show (Mat.eye nx : Mat ℝ).nc = nx from rfl] at this
        rw [this]
      rw [a1, a2, h4 k hk, add_comm]
      congr 1
      · exact Finset.sum_congr rfl fun i _ => by rw [show nx + (nx * i + k) = nx * (i + 1) + k by ring]
      · simp

theorem condense_eq_ok {nx s N : ℕ} (hs : 0 < s) (hN : 0 < N) :
    ∃ A_bar Bz, condense_equalities nx s N = .ok (A_bar, Bz) ∧ A_bar.nr = nx * (N + 1) ∧ A_bar.nc = nx ∧ Bz.nr = nx * (N + 1) ∧
      Bz.nc = nx * s * N ∧ ∀ x0 z : ℕ → ℝ, ∀ t ≤ N, ∀ k < nx, rowVal A_bar (nx * t + k) x0 + rowVal Bz (nx * t + k) z = zState nx s x0 z t k := by
  obtain ⟨I, i1, i2, i3, i4⟩ := hstack_eye (nx := nx) hs
  obtain ⟨b1, b2, b3⟩ := bdiag_rep (N := N) i2 i3
  have ebd : np.block_diag (List.replicate N I) = Mat.bdiag (List.replicate N I) := if_neg (by simp; omega)
  refine ⟨(Mat.eye nx).vapp (Mat.zeros (nx * N) nx), (Mat.zeros nx (Mat.bdiag (List.replicate N I)).nc).vapp (Mat.bdiag (List.replicate N I)), ?_, ?_, rfl, ?_, b2, ?_⟩
  · unfold condense_equalities
    rw [vstack_two (by rfl), Py.ok_bind, i1, Py.ok_bind]
    simp only
    rw [ebd, vstack_two (by rfl), Py.ok_bind]
    rfl
  · show nx + nx * N = _
    ring
  · show nx + (Mat.bdiag (List.replicate N I)).nr = _
    rw [b1]; ring
  · intro x0 z t ht k hk
    cases t with
    | zero =>
      rw [mul_zero, zero_add, rowVal_vapp_lt (by exact hk), rowVal_vapp_lt (by exact hk), rowVal_eye hk, rowVal_zeros, add_zero]
      rfl
    | succ t =>
      have e1 := rowVal_vapp_add (A := Mat.eye nx) (B := Mat.zeros (nx * N) nx) rfl (nx * t + k) x0
      have e2 := rowVal_vapp_add (A := Mat.zeros nx (Mat.bdiag (List.replicate N I)).nc) (B := Mat.bdiag (List.replicate N I)) rfl (nx * t + k) z
      rw [show (Mat.eye nx : Mat ℝ).nr = nx from rfl, rowVal_zeros] at e1
      rw [show (Mat.zeros nx (Mat.bdiag (List.replicate N I)).nc : Mat ℝ).nr = nx from rfl, b3 t (by omega) k hk, i4 k hk] at e2
      rw [show nx * (t + 1) + k = nx + (nx * t + k) by ring, e1, e2, zero_add]
      rfl

/-- sizes of the mixed-integer program -/
structure MiShape (nu nz nd nx : ℕ) (q : MpMIQP) : Prop where
  Huu : q.Huu.nr = nu ∧ q.Huu.nc = nu
  Hzz : q.Hzz.nr = nz ∧ q.Hzz.nc = nz
  Hzx : q.Hzx.nr = nz ∧ q.Hzx.nc = nx
  Hxx : q.Hxx.nr = nx ∧ q.Hxx.nc = nx
  Au : q.Au.nr = q.b.n ∧ q.Au.nc = nu
  Az : q.Az.nr = q.b.n ∧ q.Az.nc = nz
  Ad : q.Ad.nr = q.b.n ∧ q.Ad.nc = nd
  Ax : q.Ax.nr = q.b.n ∧ q.Ax.nc = nx

theorem condense_hybrid_ok {S : PWA} (h : PwaShape S) {al be ga : List (List (Mat ℝ))}
    (ha : IsBigM S.nm (List.replicate S.nm S.nx) al) (hb : IsBigM S.nm (List.replicate S.nm S.nx) be)
    (hg : IsBigM S.nm (S.domains.map fun D => D.A.nr) ga) {N : ℕ} (hN : 0 < N) {Q R P : Mat ℝ} {X_N : Poly}
    (hQ : Q.nr = S.nx ∧ Q.nc = S.nx) (hR : R.nr = S.nu ∧ R.nc = S.nu) (hP : P.nr = S.nx ∧ P.nc = S.nx)
    (hX : X_N.A.nc = S.nx ∧ X_N.b.n = X_N.A.nr) :
    ∃ q, condense_hybrid S N Q R P X_N al be ga = .ok q ∧ MiShape (S.nu * N) (S.nx * S.nm * N) (S.nm * N) S.nx q ∧
      (∀ (ε : ℝ) (x u z d : ℕ → ℝ),
        (∀ r < q.b.n, rowVal q.Au r u + rowVal q.Az r z + rowVal q.Ad r d + rowVal q.Ax r x ≤ q.b.e r + ε) ↔
        (∀ t < N, StageSlack S al be ga ε (zState S.nx S.nm x z t) (unflat S.nu u t) (unflat (S.nx * S.nm) z t) (unflat S.nm d t)) ∧
        ∀ r < X_N.A.nr, rowVal X_N.A r (zState S.nx S.nm x z N) ≤ X_N.b.e r + ε) ∧
      (SymMat S.nx Q → SymMat S.nx P → ∀ x u z : ℕ → ℝ,
        miCost q.Huu q.Hzz q.Hzx q.Hxx u z x = lqCost Q R P (zState S.nx S.nm x z) (unflat S.nu u) N) := by
  obtain ⟨E, n, e1, e2, e3, e4, e5, e6, e7⟩ := build_ok h rfl rfl ha hb hg
  obtain ⟨E', f1, f2, f3, f4, f5, f6, f7⟩ := condense_ineq_ok hN e2 e3 e4 e5 e6 hX
  obtain ⟨A, B, g1, g2, g3, g4, g5, g6⟩ := condense_eq_ok (nx := S.nx) h.pos hN
  have ebd : np.block_diag (List.replicate N Q ++ [P]) = Mat.bdiag (List.replicate N Q ++ [P]) := if_neg (by simp)
  obtain ⟨q1, q2⟩ := bdiag_rep_shape hQ.1 hQ.2 hP.1 hP.2 N
  set Qb := Mat.bdiag (List.replicate N Q ++ [P]) with hQb
  have erd : np.block_diag (List.replicate N R) = Mat.bdiag (List.replicate N R) := if_neg (by simp; omega)
  obtain ⟨r1, r2, r3⟩ := bdiag_rep' hR.1 hR.2 N
  have k1 : np.dotMM B.T Qb = .ok (B.T.mul Qb) := if_pos (by show B.nr = _; rw [g4, q1])
  have k2 : np.dotMM (B.T.mul Qb) B = .ok ((B.T.mul Qb).mul B) := if_pos (by show Qb.nc = _; rw [g4, q2])
  have k3 : np.dotMM (B.T.mul Qb) A = .ok ((B.T.mul Qb).mul A) := if_pos (by show Qb.nc = _; rw [g2, q2])
  have k4 : np.dotMM A.T Qb = .ok (A.T.mul Qb) := if_pos (by show A.nr = _; rw [g2, q1])
  have k5 : np.dotMM (A.T.mul Qb) A = .ok ((A.T.mul Qb).mul A) := if_pos (by show Qb.nc = _; rw [g2, q2])
  have k6 : np.dotMM E'.x B = .ok (E'.x.mul B) := if_pos (by rw [f2.2, g4])
  have k7 : np.addM E'.z (E'.x.mul B) = .ok (E'.z.add (E'.x.mul B)) := if_pos ⟨by rw [f4.1]; exact f2.1.symm, by rw [f4.2]; exact g5.symm⟩
  have k8 : np.dotMM E'.x A = .ok (E'.x.mul A) := if_pos (by rw [f2.2, g2])
  refine ⟨⟨Mat.bdiag (List.replicate N R), (B.T.mul Qb).mul B, (A.T.mul Qb).mul A, (B.T.mul Qb).mul A, E'.u, E'.z.add (E'.x.mul B), E'.d, E'.x.mul A, E'.h⟩,
    ?_, ⟨⟨r1, r2⟩, ⟨g5, g5⟩, ⟨g5, g3⟩, ⟨g3, g3⟩, ⟨f3.1.trans f6.symm, f3.2⟩, ⟨f4.1.trans f6.symm, f4.2⟩, ⟨f5.1.trans f6.symm, f5.2⟩, ⟨f2.1.trans f6.symm, g3⟩⟩, ?_, ?_⟩
  · unfold condense_hybrid
    rw [e1, Py.ok_bind, f1, Py.ok_bind, g1, Py.ok_bind]
    simp only
    unfold assemble
    simp only
    rw [ebd, k1, Py.ok_bind, k2, Py.ok_bind, k3, Py.ok_bind, k4, Py.ok_bind, k5, Py.ok_bind, k6, Py.ok_bind, k7, Py.ok_bind, k8, Py.ok_bind, erd]
    rfl
  · intro ε x u z d
    simp only
    have key : ∀ r, rowVal E'.u r u + rowVal (E'.z.add (E'.x.mul B)) r z + rowVal E'.d r d + rowVal (E'.x.mul A) r x
        = rowVal E'.x r (fun k => rowVal A k x + rowVal B k z) + rowVal E'.u r u + rowVal E'.z r z + rowVal E'.d r d := by
      intro r
      have ea : rowVal (E'.z.add (E'.x.mul B)) r z = rowVal E'.z r z + rowVal (E'.x.mul B) r z := by
        unfold rowVal
        rw [show (E'.z.add (E'.x.mul B)).nc = E'.z.nc from rfl, show (E'.x.mul B).nc = E'.z.nc by rw [f4.2]; exact g5, ← Finset.sum_add_distrib]
        exact Finset.sum_congr rfl fun j _ => by simp [Mat.add, add_mul]
      rw [ea, rowVal_mul (by rw [f2.2, g4]), rowVal_mul (by rw [f2.2, g2]), rowVal_add']
      ring
    rw [f6]
    simp only [key]
    rw [f7]
    refine and_congr ?_ ?_
    · refine forall_congr' fun t => forall_congr' fun ht => ?_
      rw [← e7]
      refine forall_congr' fun r => forall_congr' fun hr => ?_
      rw [rowVal_congr' (A := E.x) r (y := zState S.nx S.nm x z t) fun j hj => g6 x z t ht.le j (by rw [← e2.2]; exact hj)]
      rfl
    · refine forall_congr' fun r => forall_congr' fun hr => ?_
      rw [rowVal_congr' (A := X_N.A) r (y := zState S.nx S.nm x z N) fun j hj => g6 x z N le_rfl j (by rw [← hX.1]; exact hj)]
  · intro sQ sP x u z
    unfold miCost
    have c1 : ∑ i ∈ range ((B.T.mul Qb).mul A).nr, ∑ j ∈ range ((B.T.mul Qb).mul A).nc, z i * ((B.T.mul Qb).mul A).e i j * x j
        = bil ((B.T.mul Qb).mul A) z x := by
      unfold bil rowVal
      refine Finset.sum_congr rfl fun i _ => ?_
      rw [Finset.mul_sum]
      exact Finset.sum_congr rfl fun j _ => by ring
    simp only
    rw [c1, quad_bil, quad_bil, quad_bil, bil_sandwich (by rw [g4, q1]) (by rw [q2, g4]), bil_sandwich (by rw [g4, q1]) (by rw [q2, g2]),
      bil_sandwich (by rw [g2, q1]) (by rw [q2, g2]), r3]
    have hsym := bil_rep_symm sQ sP N
    have hexp : bil Qb (fun i => rowVal A i x + rowVal B i z) (fun i => rowVal A i x + rowVal B i z)
        = bil Qb (fun i => rowVal A i x) (fun i => rowVal A i x) + 2 * bil Qb (fun i => rowVal B i z) (fun i => rowVal A i x)
          + bil Qb (fun i => rowVal B i z) (fun i => rowVal B i z) := by
      rw [bil_add_right, bil_add_left, bil_add_left, hsym (fun i => rowVal A i x) (fun i => rowVal B i z)]
      ring
    have hval := bil_bdiag_rep hQ.1 hQ.2 hP.1 hP.2 N (fun i => rowVal A i x + rowVal B i z) (fun i => rowVal A i x + rowVal B i z)
    rw [← hQb, hexp] at hval
    have s1 : ∀ t < N, bil Q (fun i => rowVal A (S.nx * t + i) x + rowVal B (S.nx * t + i) z) (fun i => rowVal A (S.nx * t + i) x + rowVal B (S.nx * t + i) z)
        = quad Q (zState S.nx S.nm x z t) := fun t ht => by
      rw [quad_bil]
      exact bil_congr hQ.1 hQ.2 (fun i hi => g6 x z t ht.le i hi) (fun i hi => g6 x z t ht.le i hi)
    have s2 : bil P (fun i => rowVal A (S.nx * N + i) x + rowVal B (S.nx * N + i) z) (fun i => rowVal A (S.nx * N + i) x + rowVal B (S.nx * N + i) z)
        = quad P (zState S.nx S.nm x z N) := by
      rw [quad_bil]
      exact bil_congr hP.1 hP.2 (fun i hi => g6 x z N le_rfl i hi) (fun i hi => g6 x z N le_rfl i hi)
    rw [s2, Finset.sum_congr rfl fun t ht => s1 t (mem_range.1 ht)] at hval
    unfold lqCost
    rw [Finset.sum_add_distrib]
    have s3 : ∑ t ∈ range N, bil R (fun i => u (S.nu * t + i)) (fun i => u (S.nu * t + i)) = ∑ t ∈ range N, quad R (unflat S.nu u t) :=
      Finset.sum_congr rfl fun t _ => by rw [quad_bil]; rfl
    rw [s3]
    linarith

end Control
end Verif
