import Verif.Proofs.Mpc

/- Sizes of the weights and of the terminal set of the linear controller: C142 of properties.jsonl. -/
namespace Verif.Props
open Dyn Spec Finset Control

theorem bdiag_cols : ∀ l : List (Mat ℝ), (Mat.bdiag l).nc = (l.map (·.nc)).sum
  | [] => rfl
  | A :: l => by
    show A.nc + (Mat.bdiag l).nc = _
    rw [bdiag_cols l]
    rfl

/-- the number of rows (or columns) `r` of the weight of the inputs passes the sum of `R_bar` and `B_bar' Q_bar B_bar` -/
def FitsAxis (N nu r : ℕ) : Prop := r = nu ∨ N = 1 ∧ (r = 1 ∨ nu = 1)

/-- the sizes that the constructor of the linear controller does not reject -/
def Fits (nx nu N : ℕ) (Q R P : Mat ℝ) (X_N : Poly) : Prop :=
  (N * Q.nr + P.nr = nx * (N + 1) ∧ N * Q.nc + P.nc = nx * (N + 1)) ∧ (FitsAxis N nu R.nr ∧ FitsAxis N nu R.nc) ∧ X_N.A.nc = nx

theorem axisSize_none {N nu r : ℕ} (hN : 0 < N) : np.axisSize (N * r) (nu * N) = none ↔ ¬ FitsAxis N nu r := by
  unfold np.axisSize FitsAxis
  have h1 : N * r = nu * N ↔ r = nu := by
    rw [Nat.mul_comm nu N]
    exact Nat.mul_right_inj (by omega)
  have h2 : nu * N = 1 ↔ N = 1 ∧ nu = 1 := by rw [mul_eq_one]; tauto
  have h3 : N * r = 1 ↔ N = 1 ∧ r = 1 := mul_eq_one
  split_ifs <;> simp <;> tauto

/-- adding the weight of the inputs -/
theorem addM_axis {A B : Mat ℝ} :
    (np.axisSize A.nr B.nr = none ∨ np.axisSize A.nc B.nc = none → np.addM A B = .error .valueError) ∧
    (¬ (np.axisSize A.nr B.nr = none ∨ np.axisSize A.nc B.nc = none) → ∃ M, np.addM A B = .ok M) := by
  have e : ∀ n, np.axisSize n n = some n := fun n => if_pos (Or.inl rfl)
  unfold np.addM
  split_ifs with h
  · rw [h.1, h.2, e, e]
    simp
  · unfold np.broadcastM
    cases np.axisSize A.nr B.nr <;> cases np.axisSize A.nc B.nc <;> simp

/-- which sizes of the weights pass -/
theorem cost_sizes {Q R P A B : Mat ℝ} {c : Vec ℝ} {N nx nu : ℕ} (hN : 0 < N) (hA : A.nr = nx * (N + 1)) (hB : B.nr = nx * (N + 1)) (hB' : B.nc = nu * N)
    (hc : c.n = nx * (N + 1)) :
    ((N * Q.nr + P.nr = nx * (N + 1) ∧ N * Q.nc + P.nc = nx * (N + 1)) ∧ (FitsAxis N nu R.nr ∧ FitsAxis N nu R.nc) → ∃ r, condenseCost Q R P N A B c = .ok r) ∧
    (¬ ((N * Q.nr + P.nr = nx * (N + 1) ∧ N * Q.nc + P.nc = nx * (N + 1)) ∧ (FitsAxis N nu R.nr ∧ FitsAxis N nu R.nc)) →
      condenseCost Q R P N A B c = .error .valueError) := by
  have b1 : np.block_diag (List.replicate N Q ++ [P]) = Mat.bdiag (List.replicate N Q ++ [P]) := if_neg (by simp)
  have b2 : np.block_diag (List.replicate N R) = Mat.bdiag (List.replicate N R) := if_neg (by simp; omega)
  have q1 : (Mat.bdiag (List.replicate N Q ++ [P])).nr = N * Q.nr + P.nr := by rw [bdiag_rows]; simp
  have q2 : (Mat.bdiag (List.replicate N Q ++ [P])).nc = N * Q.nc + P.nc := by rw [bdiag_cols]; simp
  have r1 : (Mat.bdiag (List.replicate N R)).nr = N * R.nr := by rw [bdiag_rows]; simp
  have r2 : (Mat.bdiag (List.replicate N R)).nc = N * R.nc := by rw [bdiag_cols]; simp
  unfold condenseCost
  simp only [b1, b2]
  set Qb := Mat.bdiag (List.replicate N Q ++ [P])
  set Rb := Mat.bdiag (List.replicate N R)
  by_cases h1 : N * Q.nr + P.nr = nx * (N + 1)
  swap
  · have : np.dotMM B.T Qb = .error .valueError := if_neg (by show B.nr ≠ Qb.nr; omega)
    rw [this]
    exact ⟨fun h => absurd h.1.1 h1, fun _ => rfl⟩
  have c1 : np.dotMM B.T Qb = .ok (B.T.mul Qb) := if_pos (by show B.nr = Qb.nr; omega)
  rw [c1, Py.ok_bind]
  by_cases h2 : N * Q.nc + P.nc = nx * (N + 1)
  swap
  · have : np.dotMM (B.T.mul Qb) B = .error .valueError := if_neg (by show Qb.nc ≠ B.nr; omega)
    rw [this]
    exact ⟨fun h => absurd h.1.2 h2, fun _ => rfl⟩
  have c2 : np.dotMM (B.T.mul Qb) B = .ok ((B.T.mul Qb).mul B) := if_pos (by show Qb.nc = B.nr; omega)
  rw [c2, Py.ok_bind]
  obtain ⟨k1, k2⟩ := addM_axis (A := Rb) (B := (B.T.mul Qb).mul B)
  rw [show ((B.T.mul Qb).mul B).nr = nu * N from hB', show ((B.T.mul Qb).mul B).nc = nu * N from hB', r1, r2, axisSize_none hN, axisSize_none hN] at k1 k2
  by_cases h3 : FitsAxis N nu R.nr ∧ FitsAxis N nu R.nc
  swap
  · rw [k1 (by tauto)]
    exact ⟨fun h => absurd h.2 h3, fun _ => rfl⟩
  obtain ⟨M, c3⟩ := k2 (by tauto)
  have c4 : np.dotMM (B.T.mul Qb) A = .ok _ := if_pos (by show Qb.nc = A.nr; omega)
  have c5 : np.dotMM A.T Qb = .ok _ := if_pos (by show A.nr = Qb.nr; omega)
  have c6 : np.dotMM (A.T.mul Qb) A = .ok _ := if_pos (by show Qb.nc = A.nr; omega)
  have c7 : np.dotMV (B.T.mul Qb) c = .ok _ := if_pos (by show Qb.nc = c.n; omega)
  have c8 : np.dotMV (A.T.mul Qb) c = .ok _ := if_pos (by show Qb.nc = c.n; omega)
  have c9 : np.dotVM c Qb = .ok _ := if_pos (by omega)
  have c10 : np.dotVV (Mat.vecMul c Qb) c = .ok _ := if_pos (by show Qb.nc = c.n; omega)
  refine ⟨fun _ => ?_, fun h => absurd ⟨⟨h1, h2⟩, h3⟩ h⟩
  rw [c3, Py.ok_bind, c4, Py.ok_bind, c5, Py.ok_bind, c6, Py.ok_bind, c7, Py.ok_bind, c8, Py.ok_bind, c9, Py.ok_bind, c10]
  exact ⟨_, rfl⟩

/-- weights for the proofs -/
theorem unit_weights (nx nu : ℕ) : Weights nx nu (Mat.zeros nx nx) (Mat.eye nu) (Mat.zeros nx nx) := by
  have z : ∀ x, quad (Mat.zeros nx nx) x = 0 := fun x => by simp [quad, Mat.zeros]
  have e : ∀ x, quad (Mat.eye nu) x = ∑ i ∈ range nu, x i * x i := fun x => by
    unfold quad
    refine Finset.sum_congr rfl fun i hi => ?_
    rw [Finset.sum_eq_single i]
    · simp [Mat.eye]
    · intro j _ hj
      simp [Mat.eye, Ne.symm hj]
    · intro h
      exact absurd hi h
  refine ⟨⟨rfl, rfl, fun _ _ _ _ => rfl⟩, ⟨rfl, rfl, fun _ _ _ _ => rfl⟩, ⟨rfl, rfl, fun i _ j _ => ?_⟩, fun x => (z x).ge, fun x => (z x).ge, fun u ⟨s, hs, h⟩ => ?_⟩
  · simp [Mat.eye, eq_comm]
  · rw [e]
    exact Finset.sum_pos' (fun i _ => mul_self_nonneg _) ⟨s, mem_range.2 hs, mul_self_pos.2 h⟩

/-- which sizes pass the condensing for a system and modes that are consistent -/
theorem ocp_sizes {S : PWA} {Q R P : Mat ℝ} {Q0 R0 P0 : Mat ℝ} {X0 X_N : Poly} {modes : List ℕ} (h : OcpShape S Q0 R0 P0 X0 modes) (hX : X_N.b.n = X_N.A.nr) :
    (Fits S.nx S.nu modes.length Q R P X_N → ∃ A B c Huu Hux Hxx fu fx g Au Ax b, S.condense modes = .ok (A, B, c) ∧
      condenseCost Q R P modes.length A B c = .ok (Huu, Hux, Hxx, fu, fx, g) ∧
      condense_optimal_control_problem S Q R P X_N modes = MpQP.init Huu Hux Hxx fu fx g Au Ax b) ∧
    (¬ Fits S.nx S.nu modes.length Q R P X_N → condense_optimal_control_problem S Q R P X_N modes = .error .valueError) := by
  obtain ⟨A, B, c, k1, kA1, kA2, kB1, kB2, kc, -⟩ := condense_run h
  have hN : 0 < modes.length := List.length_pos_iff.2 h.ne
  obtain ⟨w1, w2⟩ := cost_sizes (Q := Q) (R := R) (P := P) hN kA1 kB1 kB2 kc
  set N := modes.length with hNdef
  set Ds := modes.map fun m => S.domains.getD m poly0 with hDs
  have hDmem : ∀ D ∈ Ds, D ∈ S.domains := by
    intro D hD
    obtain ⟨m, hm, rfl⟩ := List.mem_map.1 hD
    exact getD_mem _ (by rw [← h.len]; exact h.modes m hm)
  have hD : modes.mapM (np.listGet S.domains) = .ok Ds := mapM_ok fun m hm => listGet_ok poly0 (by rw [← h.len]; exact h.modes m hm)
  have hDl : Ds.length = N := by simp [hDs, hNdef]
  unfold condense_optimal_control_problem
  rw [k1, Py.ok_bind]
  simp only
  by_cases hc : (N * Q.nr + P.nr = S.nx * (N + 1) ∧ N * Q.nc + P.nc = S.nx * (N + 1)) ∧ (FitsAxis N S.nu R.nr ∧ FitsAxis N S.nu R.nc)
  swap
  · rw [w2 hc]
    exact ⟨fun hf => absurd ⟨hf.1, hf.2.1⟩ hc, fun _ => rfl⟩
  obtain ⟨⟨Huu, Hux, Hxx, fu, fx, g⟩, hr⟩ := w1 hc
  rw [hr, Py.ok_bind]
  simp only
  rw [hD, Py.ok_bind]
  by_cases hXc : X_N.A.nc = S.nx
  · -- the constraints are those of a problem with other weights
    have h' : OcpShape S (Mat.zeros S.nx S.nx) (Mat.eye S.nu) (Mat.zeros S.nx S.nx) X_N modes :=
      ⟨h.len, h.sys, h.dom, ⟨rfl, rfl⟩, ⟨rfl, rfl⟩, ⟨rfl, rfl⟩, ⟨hXc, hX⟩, h.ne, h.modes⟩
    obtain ⟨q, hq, -⟩ := ocp_made h' (unit_weights _ _)
    unfold condense_optimal_control_problem at hq
    rw [k1, Py.ok_bind] at hq
    simp only at hq
    obtain ⟨r', hr', hq⟩ := Py.bind_eq_ok hq
    rw [hD, Py.ok_bind] at hq
    obtain ⟨⟨Au, Ax, b⟩, hk, -⟩ := Py.bind_eq_ok hq
    rw [hk, Py.ok_bind]
    refine ⟨fun _ => ?_, fun hf => absurd ⟨hc.1, hc.2, hXc⟩ hf⟩
    exact ⟨A, B, c, Huu, Hux, Hxx, fu, fx, g, Au, Ax, b, rfl, hr, rfl⟩
  · refine ⟨fun hf => absurd hf.2.2 hXc, fun _ => ?_⟩
    have e1 : np.block_diag (Ds.map (fun D => D.A.colsTo S.nx) ++ [X_N.A]) = Mat.bdiag (Ds.map (fun D => D.A.colsTo S.nx) ++ [X_N.A]) := if_neg (by simp)
    have e2 : (Mat.bdiag (Ds.map (fun D => D.A.colsTo S.nx) ++ [X_N.A])).nc = N * S.nx + X_N.A.nc := by
      rw [bdiag_cols, List.map_append, List.map_map, List.sum_append]
      congr 1
      · rw [List.map_congr_left (g := fun _ => S.nx) fun D hD' => ?_, List.map_const', List.sum_replicate, hDl]
        · rfl
        · show min S.nx D.A.nc = S.nx
          rw [(h.dom D (hDmem D hD')).1]
          omega
    have e3 : np.dotMM (Mat.bdiag (Ds.map (fun D => D.A.colsTo S.nx) ++ [X_N.A])) B = .error .valueError := if_neg (by
      rw [e2, kB1]
      intro hh
      apply hXc
      have : S.nx * (N + 1) = N * S.nx + S.nx := by ring
      omega)
    unfold condenseConstr
    simp only [e1]
    have ev : ∀ G : Mat ℝ, np.vstack [G, Mat.zeros X_N.A.nr G.nc] = .ok _ := fun G => if_pos (by rfl)
    rw [ev, Py.ok_bind, show np.concatenate (Ds.map (·.b) ++ [X_N.b]) = .ok _ from if_neg (by simp), Py.ok_bind, e3]
    rfl

/-- the piecewise affine system with one mode of the linear controller -/
def fakePwa (S : LinearSystem) (D : Poly) : PWA := ⟨S.nx, S.nu, [⟨S.A, S.B, Vec.zeros S.nx, S.nx, S.nu⟩], [D], 1⟩

/-- the constructor condenses the problem of the system with one mode, if the domain has the right dimension -/
theorem mpc_init_eq {S : LinearSystem} (hS : SystemShape S.nx S.nu S.A S.B (Vec.zeros S.nx)) (N : ℕ) (Q R P : Mat ℝ) (D X_N : Poly) :
    (D.A.nc = S.nx + S.nu → MPC.init S N Q R P D X_N = (do
      let q ← condense_optimal_control_problem (fakePwa S D) Q R P X_N (List.replicate N 0)
      return ⟨S, N, Q, R, P, D, X_N, none, q⟩)) ∧
    (D.A.nc ≠ S.nx + S.nu → MPC.init S N Q R P D X_N = .error .valueError) := by
  set Sa : AffineSystem := ⟨S.A, S.B, Vec.zeros S.nx, S.nx, S.nu⟩ with hSa
  have e1 : AffineSystem.init S.A S.B (.d1 (Vec.zeros S.nx)) = .ok Sa := by
    unfold AffineSystem.init
    rw [check_ok' hS, Py.ok_bind, hS.2.2.1, hS.2.2.2.1]
    rfl
  have o1 : onlyElement ([Sys.aff Sa].map Sys.nx) = .ok S.nx := rfl
  have o2 : onlyElement ([Sys.aff Sa].map Sys.nu) = .ok S.nu := rfl
  have o3 : onlyElement ([D].map (·.A.nc)) = .ok D.A.nc := rfl
  have e2 : D.A.nc = S.nx + S.nu → PWA.init [.aff Sa] [D] = .ok (fakePwa S D) := by
    intro h
    unfold PWA.init
    rw [o1, o2, o3, h]
    simp only [List.length_cons, List.length_nil, ne_eq, not_true_eq_false, if_false, Py.ok_bind]
    rfl
  have e3 : D.A.nc ≠ S.nx + S.nu → PWA.init [.aff Sa] [D] = .error .valueError := by
    intro h
    unfold PWA.init
    rw [o1, o2, o3]
    simp only [List.length_cons, List.length_nil, ne_eq, not_true_eq_false, if_false, Py.ok_bind, h, not_false_eq_true, if_true]
    rfl
  unfold MPC.init MPC.condense_program
  rw [e1, Py.ok_bind]
  constructor
  · intro h
    rw [e2 h, Py.ok_bind]
  · intro h
    rw [e3 h]
    rfl

theorem fakePwa_shape {S : LinearSystem} (hS : SystemShape S.nx S.nu S.A S.B (Vec.zeros S.nx)) {N : ℕ} (hN : 0 < N) {D : Poly}
    (hD : D.A.nc = S.nx + S.nu ∧ D.b.n = D.A.nr) :
    OcpShape (fakePwa S D) (Mat.zeros S.nx S.nx) (Mat.eye S.nu) (Mat.zeros S.nx S.nx) (Poly.fresh (Mat.zeros 0 S.nx) (Vec.zeros 0) (Mat.zeros 0 S.nx) (Vec.zeros 0))
      (List.replicate N 0) := by
  refine ⟨rfl, fun T hT => ?_, fun D' hD' => ?_, ⟨rfl, rfl⟩, ⟨rfl, rfl⟩, ⟨rfl, rfl⟩, ⟨rfl, rfl⟩, by simp; omega, fun m hm => ?_⟩
  · obtain rfl : T = _ := by simpa [fakePwa] using hT
    exact ⟨hS, rfl, rfl⟩
  · obtain rfl : D' = D := by simpa [fakePwa] using hD'
    exact hD
  · rw [(List.mem_replicate.1 hm).2]
    simp [fakePwa]

/-- C142 for the linear controller, partial: the constructor raises `ValueError` for an empty horizon, for a domain or a terminal set of the wrong
dimension, if the sizes of `N` copies of `Q` and of `P` do not add up to `(N + 1) nx`, and if those of `R` cannot be broadcast; all other sizes
are accepted, but for a `LinAlgError` if the Hessian is not square or singular.  So if `Q` has the right size then `P` has, and `R` has if the horizon is at least 2, or if `R`
has not one row or column and there is not just one input.  Missing (and false, `C142_false`): wrong sizes of `Q` and `P` with the right sum, and broadcasting of `R`. -/
theorem C142_partial (S : LinearSystem) (hS : SystemShape S.nx S.nu S.A S.B (Vec.zeros S.nx)) (N : ℕ) (Q R P : Mat ℝ) (D X_N : Poly) (hD : D.b.n = D.A.nr)
    (hX : X_N.b.n = X_N.A.nr) :
    (¬ (0 < N ∧ D.A.nc = S.nx + S.nu ∧ X_N.A.nc = S.nx ∧ N * Q.nr + P.nr = (N + 1) * S.nx ∧ N * Q.nc + P.nc = (N + 1) * S.nx ∧
        (R.nr = S.nu ∨ N = 1 ∧ (R.nr = 1 ∨ S.nu = 1)) ∧ (R.nc = S.nu ∨ N = 1 ∧ (R.nc = 1 ∨ S.nu = 1))) →
      MPC.init S N Q R P D X_N = .error .valueError) ∧
    (0 < N ∧ D.A.nc = S.nx + S.nu ∧ X_N.A.nc = S.nx ∧ N * Q.nr + P.nr = (N + 1) * S.nx ∧ N * Q.nc + P.nc = (N + 1) * S.nx ∧
        (R.nr = S.nu ∨ N = 1 ∧ (R.nr = 1 ∨ S.nu = 1)) ∧ (R.nc = S.nu ∨ N = 1 ∧ (R.nc = 1 ∨ S.nu = 1)) →
      (∃ c, MPC.init S N Q R P D X_N = .ok c) ∨ MPC.init S N Q R P D X_N = .error .linAlgError) ∧
    (∀ c, MPC.init S N Q R P D X_N = .ok c → 0 < N ∧ D.A.nc = S.nx + S.nu ∧ X_N.A.nc = S.nx ∧
      (Q.nr = S.nx ∧ Q.nc = S.nx ↔ P.nr = S.nx ∧ P.nc = S.nx) ∧ (2 ≤ N ∨ R.nr ≠ 1 ∧ R.nc ≠ 1 ∧ S.nu ≠ 1 → R.nr = S.nu ∧ R.nc = S.nu)) ∧
    (0 < N → D.A.nc = S.nx + S.nu → X_N.A.nc = S.nx → Weights S.nx S.nu Q R P → ∃ c, MPC.init S N Q R P D X_N = .ok c) := by
  have main : (¬ (0 < N ∧ D.A.nc = S.nx + S.nu ∧ Fits S.nx S.nu N Q R P X_N) → MPC.init S N Q R P D X_N = .error .valueError) ∧
      (0 < N ∧ D.A.nc = S.nx + S.nu ∧ Fits S.nx S.nu N Q R P X_N →
        (∃ c, MPC.init S N Q R P D X_N = .ok c) ∨ MPC.init S N Q R P D X_N = .error .linAlgError) := by
    obtain ⟨m1, m2⟩ := mpc_init_eq hS N Q R P D X_N
    by_cases hd : D.A.nc = S.nx + S.nu
    swap
    · exact ⟨fun _ => m2 hd, fun h => absurd h.2.1 hd⟩
    rw [m1 hd]
    by_cases hN : 0 < N
    swap
    · obtain rfl : N = 0 := by omega
      refine ⟨fun _ => ?_, fun h => absurd h.1 hN⟩
      rfl
    obtain ⟨k1, k2⟩ := ocp_sizes (Q := Q) (R := R) (P := P) (fakePwa_shape hS hN ⟨hd, hD⟩) hX
    rw [List.length_replicate] at k1 k2
    change Fits S.nx S.nu N Q R P X_N → _ at k1
    change ¬ Fits S.nx S.nu N Q R P X_N → _ at k2
    refine ⟨fun h => ?_, fun h => ?_⟩
    · rw [k2 (by tauto)]
      rfl
    · obtain ⟨A, B, c, Huu, Hux, Hxx, fu, fx, g, Au, Ax, b, -, -, hq⟩ := k1 h.2.2
      rw [hq]
      unfold MpQP.init np.inv
      split_ifs
      · exact Or.inr rfl
      · exact Or.inr rfl
      · exact Or.inl ⟨_, rfl⟩
  have hiff : Fits S.nx S.nu N Q R P X_N ↔ X_N.A.nc = S.nx ∧ N * Q.nr + P.nr = (N + 1) * S.nx ∧ N * Q.nc + P.nc = (N + 1) * S.nx ∧
        (R.nr = S.nu ∨ N = 1 ∧ (R.nr = 1 ∨ S.nu = 1)) ∧ (R.nc = S.nu ∨ N = 1 ∧ (R.nc = 1 ∨ S.nu = 1)) := by
    unfold Fits FitsAxis
    rw [Nat.mul_comm (N + 1) S.nx]
    tauto
  rw [hiff] at main
  refine ⟨main.1, main.2, fun c hc => ?_, fun hN hd hx hw => ?_⟩
  · by_cases h : 0 < N ∧ D.A.nc = S.nx + S.nu ∧ X_N.A.nc = S.nx ∧ N * Q.nr + P.nr = (N + 1) * S.nx ∧ N * Q.nc + P.nc = (N + 1) * S.nx ∧
        (R.nr = S.nu ∨ N = 1 ∧ (R.nr = 1 ∨ S.nu = 1)) ∧ (R.nc = S.nu ∨ N = 1 ∧ (R.nc = 1 ∨ S.nu = 1))
    swap
    · rw [main.1 h] at hc
      cases hc
    obtain ⟨hN, hd, hx, q1, q2, r1, r2⟩ := h
    have key : ∀ a b : ℕ, N * a + b = (N + 1) * S.nx → (a = S.nx ↔ b = S.nx) := by
      intro a b hab
      rw [Nat.add_mul, Nat.one_mul] at hab
      constructor
      · rintro rfl
        omega
      · rintro rfl
        exact Nat.eq_of_mul_eq_mul_left hN (by omega)
    refine ⟨hN, hd, hx, and_congr (key _ _ q1) (key _ _ q2), fun h => ⟨?_, ?_⟩⟩
    · rcases r1 with r | ⟨r, r'⟩ <;> omega
    · rcases r2 with r | ⟨r, r'⟩ <;> omega
  · obtain ⟨q, hq, -⟩ := Control.init_run (D := D) (X_N := X_N) ⟨hS, hN, hw, ⟨hd, hD⟩, ⟨hx, hX⟩⟩
    exact ⟨_, hq⟩

/-- a diagonal matrix -/
def diagM (l : List ℝ) : Mat ℝ := ⟨l.length, l.length, fun i j => if i = j then l.getD i 0 else 0⟩

theorem diagM_bdiag (a b c d : ℝ) : Mat.bdiag [diagM [a, b, c], diagM [d]] = Mat.bdiag [diagM [a, b], diagM [c, d]] := by
  simp only [Mat.bdiag, Mat.bdiag2, diagM, Mat.mk.injEq, List.length_cons, List.length_nil, Nat.reduceAdd, Nat.add_zero, true_and]
  funext i j
  rcases i with _ | _ | _ | _ | i <;> rcases j with _ | _ | _ | _ | j <;> simp

theorem diagM_quad2 (a b : ℝ) (x : ℕ → ℝ) : quad (diagM [a, b]) x = a * x 0 ^ 2 + b * x 1 ^ 2 := by
  simp [quad, diagM, Finset.sum_range_succ]
  ring

theorem diagM_sym (l : List ℝ) : SymMat l.length (diagM l) := ⟨rfl, rfl, fun i _ j _ => by
  by_cases h : i = j
  · subst h; rfl
  · simp [diagM, h, Ne.symm h]⟩

/-- `x⁺ = x + (0, 1) u` -/
def pusher : LinearSystem := ⟨Mat.eye 2, ⟨2, 1, fun i _ => if i = 1 then 1 else 0⟩, 2, 1, none⟩
/-- `x⁺ = x + u0` with the inputs `u0` and `u1` -/
def spare : LinearSystem := ⟨Mat.eye 1, ⟨1, 2, fun _ j => if j = 0 then 1 else 0⟩, 1, 2, none⟩
/-- no constraint on `n` variables -/
def allOf (n : ℕ) : Poly := Poly.fresh (Mat.zeros 0 n) (Vec.zeros 0) (Mat.zeros 0 n) (Vec.zeros 0)

theorem pusher_weights : Weights 2 1 (diagM [1, 1]) one1 (diagM [4, 7]) := by
  refine ⟨diagM_sym _, diagM_sym _, ⟨rfl, rfl, fun _ _ _ _ => rfl⟩, fun x => ?_, fun x => ?_, fun u ⟨s, hs, h⟩ => ?_⟩
  · rw [diagM_quad2]; positivity
  · rw [diagM_quad2]; positivity
  · obtain rfl : s = 0 := by omega
    rw [one1_quad]; positivity

/-- a weight `Q` of size 3 for two states, with a good `P`, is rejected; and the right weights are accepted -/
example : MPC.init pusher 1 (diagM [1, 1, 4]) one1 (diagM [4, 7]) (allOf 3) (allOf 2) = .error .valueError ∧
    ∃ c, MPC.init pusher 5 (diagM [1, 1]) one1 (diagM [4, 7]) (allOf 3) (allOf 2) = .ok c := by
  have h : ∀ N Q, _ := fun N Q => C142_partial pusher ⟨rfl, rfl, rfl, rfl, rfl⟩ N Q one1 (diagM [4, 7]) (allOf 3) (allOf 2) rfl rfl
  exact ⟨(h 1 _).1 fun hh => absurd hh.2.2.2.1 (by decide), (h 5 _).2.2.2 (by norm_num) rfl rfl pusher_weights⟩

/-- C142 is false: with `N = 1` and two states the controller accepts a weight `Q` of size 3 with a weight `P` of size 1: it moves an entry of `Q` to
the terminal cost; and with two inputs it accepts a weight `R` of size 1 and adds it to all the entries of the Hessian, also where the two inputs meet -/
theorem C142_false :
    (∃ c c', MPC.init pusher 1 (diagM [1, 1, 4]) one1 (diagM [7]) (allOf 3) (allOf 2) = .ok c ∧
      MPC.init pusher 1 (diagM [1, 1]) one1 (diagM [4, 7]) (allOf 3) (allOf 2) = .ok c' ∧ c.mpqp = c'.mpqp) ∧
    ∃ c, MPC.init spare 1 (Mat.zeros 1 1) (diagM [1]) one1 (allOf 3) (allOf 1) = .ok c ∧ c.mpqp.Huu.nr = 2 ∧ c.mpqp.Huu.nc = 2 ∧ c.mpqp.Huu.e 0 1 = 1 := by
  constructor
  · have hS : SystemShape pusher.nx pusher.nu pusher.A pusher.B (Vec.zeros pusher.nx) := ⟨rfl, rfl, rfl, rfl, rfl⟩
    obtain ⟨q, hq, -⟩ := Control.init_run (S := pusher) (N := 1) (D := allOf 3) (X_N := allOf 2) ⟨hS, one_pos, pusher_weights, ⟨rfl, rfl⟩, ⟨rfl, rfl⟩⟩
    refine ⟨⟨pusher, 1, diagM [1, 1, 4], one1, diagM [7], allOf 3, allOf 2, none, q⟩, _, ?_, hq, rfl⟩
    rw [(mpc_init_eq hS 1 _ _ _ (allOf 3) _).1 rfl] at hq ⊢
    have hc : condense_optimal_control_problem (fakePwa pusher (allOf 3)) (diagM [1, 1, 4]) one1 (diagM [7]) (allOf 2) (List.replicate 1 0)
        = condense_optimal_control_problem (fakePwa pusher (allOf 3)) (diagM [1, 1]) one1 (diagM [4, 7]) (allOf 2) (List.replicate 1 0) := by
      have e1 : ∀ Q P : Mat ℝ, np.block_diag (List.replicate 1 Q ++ [P]) = Mat.bdiag [Q, P] := fun Q P => if_neg (by simp)
      unfold condense_optimal_control_problem condenseCost
      simp only [List.length_replicate, e1, diagM_bdiag]
    rw [hc]
    obtain ⟨q', h1, h2⟩ := Py.bind_eq_ok hq
    rw [h1]
    cases h2
    rfl
  · have hS : SystemShape spare.nx spare.nu spare.A spare.B (Vec.zeros spare.nx) := ⟨rfl, rfl, rfl, rfl, rfl⟩
    have hsh := fakePwa_shape hS (N := 1) one_pos (D := allOf 3) ⟨rfl, rfl⟩
    rw [(mpc_init_eq hS 1 _ _ _ (allOf 3) _).1 rfl]
    obtain ⟨A, B, c, k1, kA1, kA2, kB1, kB2, kc, kt⟩ := condense_run hsh
    change A.nr = 2 at kA1
    change B.nr = 2 at kB1
    change B.nc = 2 at kB2
    change c.n = 2 at kc
    -- the last row of `B_bar`
    have hb : ∀ v : ℕ → ℝ, rowVal B 1 v = v 0 := by
      intro v
      have t1 := kt (fun _ => 0) v 1 le_rfl 0 one_pos
      have t0 := kt (fun _ => 0) (fun _ => 0) 1 le_rfl 0 one_pos
      have z : ∀ i, rowVal B i (fun _ => (0 : ℝ)) = 0 := fun i => by simp [rowVal]
      have e : ∀ w : ℕ → ℝ, pwaTraj (fakePwa spare (allOf 3)) (List.replicate 1 0) (fun _ => 0) (unflat 2 w) 1 0 = w 0 := by
        intro w
        show (affine _ _ _ _ _ : ℕ → ℝ) 0 = _
        simp [affine, traj, fakePwa, spare, Mat.eye, Vec.zeros, unflat]
      change rowVal A 1 _ + rowVal B 1 v + c.e 1 = _ at t1
      change rowVal A 1 _ + rowVal B 1 _ + c.e 1 = _ at t0
      rw [show (fakePwa spare (allOf 3)).nu = 2 from rfl, e] at t0 t1
      rw [z] at t0
      linarith
    have b0 : B.e 1 0 = 1 := by
      have := hb (fun k => if k = 0 then 1 else 0)
      simpa [rowVal, kB2, Finset.sum_range_succ] using this
    have b1 : B.e 1 1 = 0 := by
      have := hb (fun k => if k = 1 then 1 else 0)
      simpa [rowVal, kB2, Finset.sum_range_succ] using this
    obtain ⟨A', B', c', Huu, Hux, Hxx, fu, fx, g, Au, Ax, b, h1, h2, h3⟩ := (ocp_sizes (Q := Mat.zeros 1 1) (R := diagM [1]) (P := one1) (X_N := allOf 1) hsh rfl).1
      ⟨⟨rfl, rfl⟩, ⟨Or.inr ⟨rfl, Or.inl rfl⟩, Or.inr ⟨rfl, Or.inl rfl⟩⟩, rfl⟩
    obtain ⟨rfl, rfl, rfl⟩ : A' = A ∧ B' = B ∧ c' = c := by
      rw [k1] at h1
      cases h1
      exact ⟨rfl, rfl, rfl⟩
    rw [h3]
    -- the Hessian
    set Qb := np.block_diag (List.replicate 1 (Mat.zeros 1 1) ++ [one1]) with hQb
    have eQ : Qb = Mat.bdiag [Mat.zeros 1 1, one1] := if_neg (by simp)
    have eR : np.block_diag (List.replicate 1 (diagM [1])) = Mat.bdiag [diagM [1]] := if_neg (by simp)
    unfold condenseCost at h2
    simp only [List.length_replicate] at h2
    obtain ⟨X, x1, h2⟩ := Py.bind_eq_ok h2
    obtain ⟨Y, y1, h2⟩ := Py.bind_eq_ok h2
    obtain ⟨Z, z1, h2⟩ := Py.bind_eq_ok h2
    have hX : X = B'.T.mul Qb := by
      have : np.dotMM B'.T Qb = .ok (B'.T.mul Qb) := if_pos (by show B'.nr = _; rw [kB1, eQ]; rfl)
      rw [this] at x1
      cases x1
      rfl
    have hY : Y = (B'.T.mul Qb).mul B' := by
      have : np.dotMM (B'.T.mul Qb) B' = .ok ((B'.T.mul Qb).mul B') := if_pos (by show Qb.nc = _; rw [kB1, eQ]; rfl)
      rw [hX, this] at y1
      cases y1
      rfl
    have hYe : ∀ i j, Y.e i j = B'.e 1 i * B'.e 1 j := by
      intro i j
      rw [hY, eQ]
      simp [Mat.mul, Mat.T, kB1, Mat.bdiag, Mat.bdiag2, Mat.zeros, one1, Finset.sum_range_succ]
    have hYn : Y.nr = 2 ∧ Y.nc = 2 := by
      rw [hY]
      exact ⟨kB2, kB2⟩
    have hZ : Z = ⟨2, 2, fun i j => 1 + B'.e 1 i * B'.e 1 j⟩ := by
      rw [eR] at z1
      unfold np.addM at z1
      rw [if_neg (by rw [hYn.1]; rintro ⟨h, -⟩; exact absurd h (by decide))] at z1
      unfold np.broadcastM at z1
      rw [hYn.1, hYn.2, show np.axisSize (Mat.bdiag [diagM [1]]).nr 2 = some 2 from rfl, show np.axisSize (Mat.bdiag [diagM [1]]).nc 2 = some 2 from rfl] at z1
      cases z1
      congr 1
      funext i j
      rw [hYe]
      rfl
    have hH : Huu = Z := by
      obtain ⟨_, _, h2⟩ := Py.bind_eq_ok h2
      obtain ⟨_, _, h2⟩ := Py.bind_eq_ok h2
      obtain ⟨_, _, h2⟩ := Py.bind_eq_ok h2
      obtain ⟨_, _, h2⟩ := Py.bind_eq_ok h2
      obtain ⟨_, _, h2⟩ := Py.bind_eq_ok h2
      obtain ⟨_, _, h2⟩ := Py.bind_eq_ok h2
      obtain ⟨_, _, h2⟩ := Py.bind_eq_ok h2
      cases h2
      rfl
    have hdet : (Huu.asM 2 2).det ≠ 0 := by
      rw [Matrix.det_fin_two, hH, hZ]
      simp [Mat.asM, b0, b1]
    have hi := np_inv_ok (A := Huu) (n := 2) (by rw [hH, hZ]) (by rw [hH, hZ]) hdet
    unfold MpQP.init
    rw [hi]
    exact ⟨_, rfl, by show Huu.nr = 2; rw [hH, hZ], by show Huu.nc = 2; rw [hH, hZ], by show Huu.e 0 1 = 1; rw [hH, hZ]; simp [b1]⟩

end Verif.Props
