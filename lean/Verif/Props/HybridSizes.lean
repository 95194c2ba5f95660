import Verif.Props.Hybrid
import Verif.Props.ControllerSizes

/- Sizes of the weights and of the terminal set of the hybrid controller: C143 of properties.jsonl. -/
namespace Verif.Props
open Dyn Spec Finset Control

/-- which sizes pass the last step of the constructor; the weight of the inputs is not looked at -/
theorem assemble_sizes {N nx k : ℕ} {Q R P A B : Mat ℝ} {E : Ineqs} (hA : A.nr = nx * (N + 1)) (hB : B.nr = nx * (N + 1)) (hx : E.x.nc = N * nx + k)
    (hz : E.z.nr = E.x.nr ∧ E.z.nc = B.nc) :
    ((N * Q.nr + P.nr = nx * (N + 1) ∧ N * Q.nc + P.nc = nx * (N + 1)) ∧ k = nx → ∃ q, assemble N Q R P E A B = .ok q) ∧
    (¬ ((N * Q.nr + P.nr = nx * (N + 1) ∧ N * Q.nc + P.nc = nx * (N + 1)) ∧ k = nx) → assemble N Q R P E A B = .error .valueError) := by
  have b1 : np.block_diag (List.replicate N Q ++ [P]) = Mat.bdiag (List.replicate N Q ++ [P]) := if_neg (by simp)
  have q1 : (Mat.bdiag (List.replicate N Q ++ [P])).nr = N * Q.nr + P.nr := by rw [bdiag_rows]; simp
  have q2 : (Mat.bdiag (List.replicate N Q ++ [P])).nc = N * Q.nc + P.nc := by rw [bdiag_cols]; simp
  have hm : nx * (N + 1) = N * nx + nx := by ring
  unfold assemble
  simp only [b1]
  set Qb := Mat.bdiag (List.replicate N Q ++ [P])
  by_cases h1 : N * Q.nr + P.nr = nx * (N + 1)
  swap
  · have : np.dotMM B.T Qb = .error .valueError := if_neg (by show B.nr ≠ Qb.nr; omega)
    rw [this]
    exact ⟨fun h => absurd h.1.1 h1, fun _ => rfl⟩
  have c1 : np.dotMM B.T Qb = .ok (B.T.mul Qb) := if_pos (by show B.nr = Qb.nr; omega)
  rw [c1, Py.ok_bind]
  by_cases h2 : N * Q.nc + P.nc = nx * (N + 1)
  swap
  · have : np.dotMM (B.T.mul Qb) B = .error .valueError := if_neg (by show Qb.nc ≠ B.nr; omega)
    rw [this]
    exact ⟨fun h => absurd h.1.2 h2, fun _ => rfl⟩
  have c2 : np.dotMM (B.T.mul Qb) B = .ok ((B.T.mul Qb).mul B) := if_pos (by show Qb.nc = B.nr; omega)
  have c3 : np.dotMM (B.T.mul Qb) A = .ok ((B.T.mul Qb).mul A) := if_pos (by show Qb.nc = A.nr; omega)
  have c4 : np.dotMM A.T Qb = .ok (A.T.mul Qb) := if_pos (by show A.nr = Qb.nr; omega)
  have c5 : np.dotMM (A.T.mul Qb) A = .ok ((A.T.mul Qb).mul A) := if_pos (by show Qb.nc = A.nr; omega)
  rw [c2, Py.ok_bind, c3, Py.ok_bind, c4, Py.ok_bind, c5, Py.ok_bind]
  by_cases h3 : k = nx
  swap
  · have : np.dotMM E.x B = .error .valueError := if_neg (by omega)
    rw [this]
    exact ⟨fun h => absurd h.2 h3, fun _ => rfl⟩
  have c6 : np.dotMM E.x B = .ok (E.x.mul B) := if_pos (by omega)
  have c7 : np.addM E.z (E.x.mul B) = .ok (E.z.add (E.x.mul B)) := if_pos ⟨hz.1, hz.2⟩
  have c8 : np.dotMM E.x A = .ok (E.x.mul A) := if_pos (by omega)
  rw [c6, Py.ok_bind, c7, Py.ok_bind, c8]
  exact ⟨fun _ => ⟨_, rfl⟩, fun h => absurd ⟨⟨h1, h2⟩, h3⟩ h⟩

/-- stacking the inequalities, for a terminal set of any dimension -/
theorem stack_sizes {E : Ineqs} {n a b c e N : ℕ} (X_N : Poly) (hN : 0 < N) (hx : E.x.nr = n ∧ E.x.nc = a) (hu : E.u.nr = n ∧ E.u.nc = b)
    (hz : E.z.nr = n ∧ E.z.nc = c) (hd : E.d.nr = n ∧ E.d.nc = e) :
    ∃ E', condense_inequalities N X_N E = .ok E' ∧ E'.x.nr = n * N + X_N.A.nr ∧ E'.x.nc = N * a + X_N.A.nc ∧ E'.z.nr = n * N + X_N.A.nr ∧ E'.z.nc = c * N ∧
      E'.d.nc = e * N := by
  obtain ⟨U, u1, -⟩ := pad_ok (m := X_N.A.nr) hN hu.1 hu.2
  obtain ⟨Z, z1, z2, z3, -⟩ := pad_ok (m := X_N.A.nr) hN hz.1 hz.2
  obtain ⟨D, d1, -, d3, -⟩ := pad_ok (m := X_N.A.nr) hN hd.1 hd.2
  have ebd : np.block_diag (List.replicate N E.x ++ [X_N.A]) = Mat.bdiag (List.replicate N E.x ++ [X_N.A]) := if_neg (by simp)
  have ecc : np.concatenate (List.replicate N E.h ++ [X_N.b]) = .ok (Vec.concat (List.replicate N E.h ++ [X_N.b])) := if_neg (by simp)
  refine ⟨⟨Mat.bdiag (List.replicate N E.x ++ [X_N.A]), U, Z, D, Vec.concat (List.replicate N E.h ++ [X_N.b])⟩, ?_, ?_, ?_, z2, z3, d3⟩
  · unfold condense_inequalities
    simp only
    rw [u1, Py.ok_bind, z1, Py.ok_bind, d1, Py.ok_bind, ecc, Py.ok_bind, ebd]
    rfl
  · show (Mat.bdiag _).nr = _
    rw [bdiag_rows]; simp [hx.1, mul_comm]
  · show (Mat.bdiag _).nc = _
    rw [bdiag_cols]; simp [hx.2]

/-- an empty horizon: `block_diag()` has one row and no column, and no size of `P` fits -/
theorem hybrid_empty {S : PWA} (hs : 0 < S.nm) {E : Ineqs} (Q R P : Mat ℝ) (X_N : Poly) :
    (do let E_bar ← condense_inequalities 0 X_N E
        let (A_bar, Bz_bar) ← condense_equalities S.nx S.nm 0
        assemble 0 Q R P E_bar A_bar Bz_bar) = .error .valueError := by
  obtain ⟨I, i1, -⟩ := hstack_eye (nx := S.nx) hs
  have v : ∀ M : Mat ℝ, np.vstack [M, Mat.zeros X_N.A.nr M.nc] = .ok (M.vapp (Mat.zeros X_N.A.nr M.nc)) := fun M => vstack_two rfl
  have e0 : np.block_diag ([] : List (Mat ℝ)) = ⟨1, 0, fun _ _ => 0⟩ := rfl
  have e2 : condense_equalities S.nx S.nm 0 = .ok ((Mat.eye S.nx).vapp (Mat.zeros (S.nx * 0) S.nx), (Mat.zeros S.nx 0).vapp ⟨1, 0, fun _ _ => 0⟩) := by
    have v1 : np.vstack [Mat.eye S.nx, Mat.zeros (S.nx * 0) S.nx] = .ok ((Mat.eye S.nx : Mat ℝ).vapp (Mat.zeros (S.nx * 0) S.nx)) := vstack_two rfl
    have v2 : np.vstack [Mat.zeros S.nx 0, (⟨1, 0, fun _ _ => 0⟩ : Mat ℝ)] = .ok ((Mat.zeros S.nx 0).vapp ⟨1, 0, fun _ _ => 0⟩) := vstack_two rfl
    unfold condense_equalities
    rw [v1, Py.ok_bind, i1, Py.ok_bind]
    simp only [List.replicate_zero, e0]
    rw [v2]
    rfl
  have e3 : ∃ E', condense_inequalities 0 X_N E = .ok E' := by
    unfold condense_inequalities
    simp only [List.replicate_zero, e0]
    rw [v]
    exact ⟨_, rfl⟩
  obtain ⟨E', e3⟩ := e3
  rw [e3, Py.ok_bind, e2, Py.ok_bind]
  simp only
  unfold assemble
  have b1 : np.block_diag (List.replicate 0 Q ++ [P]) = Mat.bdiag [P] := rfl
  simp only [b1]
  set B : Mat ℝ := (Mat.zeros S.nx 0).vapp ⟨1, 0, fun _ _ => 0⟩ with hB
  have hBn : B.nr = S.nx + 1 := rfl
  have hPr : (Mat.bdiag [P]).nr = P.nr := rfl
  have hPc : (Mat.bdiag [P]).nc = P.nc := rfl
  by_cases h1 : P.nr = S.nx + 1
  swap
  · have : np.dotMM B.T (Mat.bdiag [P]) = .error .valueError := if_neg (by show B.nr ≠ P.nr; omega)
    rw [this]
    rfl
  rw [show np.dotMM B.T (Mat.bdiag [P]) = .ok (B.T.mul (Mat.bdiag [P])) from if_pos (by show B.nr = P.nr; omega), Py.ok_bind]
  by_cases h2 : P.nc = S.nx + 1
  swap
  · have : np.dotMM (B.T.mul (Mat.bdiag [P])) B = .error .valueError := if_neg (by show P.nc ≠ B.nr; omega)
    rw [this]
    rfl
  rw [show np.dotMM (B.T.mul (Mat.bdiag [P])) B = .ok _ from if_pos (by show P.nc = B.nr; omega), Py.ok_bind]
  have : np.dotMM (B.T.mul (Mat.bdiag [P])) ((Mat.eye S.nx).vapp (Mat.zeros (S.nx * 0) S.nx)) = .error .valueError :=
    if_neg (by show P.nc ≠ S.nx + S.nx * 0; omega)
  rw [this]
  rfl

/-- C143 for the hybrid controller, partial: if the big-M constants exist, then the constructor raises `ValueError` for an empty horizon, for a terminal set of
the wrong dimension, and if the sizes of `N` copies of `Q` and of `P` do not add up to `(N + 1) nx`; it accepts everything else.  So if `Q` has the right size
then `P` has.  Missing (and false, `C143_false`): wrong sizes of `Q` and `P` with the right sum, and any size of `R`. -/
theorem C143_partial (L : Lib) (hL : LibSpec L) (S : PWA) (h : PwaShape S) (hnx : 0 < S.nx) (hg : GoodDomains S) (N : ℕ) (Q R P : Mat ℝ) (X_N : Poly) :
    (¬ (0 < N ∧ X_N.A.nc = S.nx ∧ N * Q.nr + P.nr = (N + 1) * S.nx ∧ N * Q.nc + P.nc = (N + 1) * S.nx) →
      HMPC.init L S N Q R P X_N = .error .valueError) ∧
    (0 < N ∧ X_N.A.nc = S.nx ∧ N * Q.nr + P.nr = (N + 1) * S.nx ∧ N * Q.nc + P.nc = (N + 1) * S.nx → ∃ c, HMPC.init L S N Q R P X_N = .ok c) ∧
    ∀ c, HMPC.init L S N Q R P X_N = .ok c → 0 < N ∧ X_N.A.nc = S.nx ∧ (Q.nr = S.nx ∧ Q.nc = S.nx ↔ P.nr = S.nx ∧ P.nc = S.nx) := by
  obtain ⟨al, be, ga, g1, g2, -⟩ := C70 L hL S h hnx hg
  obtain ⟨a1, a2, -, -⟩ := bigM_dynamics_inv h g1
  obtain ⟨a3, -, -⟩ := bigM_domains_inv h g2
  obtain ⟨E, n, e1, e2, e3, e4, e5, e6, -⟩ := build_ok h rfl rfl a1 a2 a3
  have main : (¬ (0 < N ∧ X_N.A.nc = S.nx ∧ N * Q.nr + P.nr = (N + 1) * S.nx ∧ N * Q.nc + P.nc = (N + 1) * S.nx) →
      HMPC.init L S N Q R P X_N = .error .valueError) ∧
      (0 < N ∧ X_N.A.nc = S.nx ∧ N * Q.nr + P.nr = (N + 1) * S.nx ∧ N * Q.nc + P.nc = (N + 1) * S.nx → ∃ c, HMPC.init L S N Q R P X_N = .ok c) := by
    unfold HMPC.init
    rw [g1, Py.ok_bind]
    simp only
    rw [g2, Py.ok_bind]
    unfold condense_hybrid
    rw [e1, Py.ok_bind]
    by_cases hN : 0 < N
    swap
    · obtain rfl : N = 0 := by omega
      rw [hybrid_empty h.pos]
      exact ⟨fun _ => rfl, fun hh => absurd hh.1 hN⟩
    obtain ⟨E', f1, f2, f3, f4, f5, -⟩ := stack_sizes X_N hN e2 e3 e4 e5
    obtain ⟨A, B, k1, k2, k3, k4, k5, -⟩ := condense_eq_ok (nx := S.nx) h.pos hN
    rw [f1, Py.ok_bind, k1, Py.ok_bind]
    simp only
    obtain ⟨m1, m2⟩ := assemble_sizes (Q := Q) (R := R) (P := P) k2 k4 f3 ⟨f4.trans f2.symm, f5.trans k5.symm⟩
    rw [Nat.mul_comm S.nx (N + 1)] at m1 m2
    refine ⟨fun hh => ?_, fun hh => ?_⟩
    · rw [m2 (by tauto)]
      rfl
    · obtain ⟨q, hq⟩ := m1 (by tauto)
      rw [hq]
      exact ⟨_, rfl⟩
  refine ⟨main.1, main.2, fun c hc => ?_⟩
  by_cases hh : 0 < N ∧ X_N.A.nc = S.nx ∧ N * Q.nr + P.nr = (N + 1) * S.nx ∧ N * Q.nc + P.nc = (N + 1) * S.nx
  swap
  · rw [main.1 hh] at hc
    cases hc
  obtain ⟨hN, hx, q1, q2⟩ := hh
  have key : ∀ a b : ℕ, N * a + b = (N + 1) * S.nx → (a = S.nx ↔ b = S.nx) := by
    intro a b hab
    rw [Nat.add_mul, Nat.one_mul] at hab
    constructor
    · rintro rfl
      omega
    · rintro rfl
      exact Nat.eq_of_mul_eq_mul_left hN (by omega)
  exact ⟨hN, hx, and_congr (key _ _ q1) (key _ _ q2)⟩

/-- `|w| ≤ 5` for three variables -/
noncomputable def cube : Poly :=
  Poly.fresh ⟨6, 3, fun i j => if i = j then 1 else if i = j + 3 then -1 else 0⟩ ⟨6, fun _ => 5⟩ (Mat.zeros 0 3) (Vec.zeros 0)

theorem cube_mem (w : ℕ → ℝ) : InPoly cube.A cube.b cube.C cube.d w ↔ ∀ j < 3, |w j| ≤ 5 := by
  constructor
  · rintro ⟨h, -⟩ j hj
    have p := h j (by show j < 6; omega)
    have q := h (j + 3) (by show j + 3 < 6; omega)
    interval_cases j <;> simp [cube, Poly.fresh, rowVal, Finset.sum_range_succ] at p q <;> exact abs_le.2 ⟨by linarith, by linarith⟩
  · intro h
    refine ⟨fun i hi => ?_, fun i hi => absurd hi (by simp [cube, Poly.fresh, Mat.zeros])⟩
    have hi : i < 6 := hi
    have h0 := abs_le.1 (h 0 (by norm_num))
    have h1 := abs_le.1 (h 1 (by norm_num))
    have h2 := abs_le.1 (h 2 (by norm_num))
    interval_cases i <;> simp [cube, Poly.fresh, rowVal, Finset.sum_range_succ] <;> linarith

/-- a linear system on the cube, as a piecewise affine system with one mode -/
noncomputable def onCube (S : LinearSystem) : PWA := ⟨S.nx, S.nu, [⟨S.A, S.B, Vec.zeros S.nx, S.nx, S.nu⟩], [cube], 1⟩

theorem onCube_shape {S : LinearSystem} (h : SystemShape S.nx S.nu S.A S.B (Vec.zeros S.nx)) (h3 : S.nx + S.nu = 3) : PwaShape (onCube S) :=
  ⟨rfl, rfl, one_pos, fun T hT => by
      simp only [onCube, List.mem_cons, List.not_mem_nil, or_false] at hT
      subst hT
      exact ⟨h, rfl, rfl⟩, fun D hD => by
      simp only [onCube, List.mem_cons, List.not_mem_nil, or_false] at hD
      subst hD
      exact ⟨h3.symm, rfl⟩⟩

theorem onCube_good {S : LinearSystem} (h3 : S.nx + S.nu = 3) : GoodDomains (onCube S) := by
  have e : ∀ j < (onCube S).nm, domAt (onCube S) j = cube := by
    intro j hj
    obtain rfl : j = 0 := by change j < 1 at hj; omega
    rfl
  have hn : (onCube S).nx + (onCube S).nu = 3 := h3
  refine ⟨fun j hj => ?_, fun j hj => ?_, fun j hj => ?_, fun j hj => ?_⟩ <;> rw [e j hj]
  · rw [hn]; exact ⟨rfl, rfl, rfl, rfl⟩
  · show 0 < 6; norm_num
  · exact ⟨fun _ => 0, (cube_mem _).2 fun j _ => by norm_num⟩
  · rw [hn]; exact ⟨5, fun w hw => (cube_mem w).1 hw⟩

/-- the expressions of the two costs below -/
theorem same_terms {U Z U' Z' : Mat ℝ} (u : U.nr = 1 ∧ U.nc = 1 ∧ U.e 0 0 = 1) (z : Z.nr = 1 ∧ Z.nc = 1 ∧ Z.e 0 0 = 1)
    (u' : U'.nr = 2 ∧ U'.nc = 2 ∧ U'.e 0 0 = 1 ∧ U'.e 0 1 = 0 ∧ U'.e 1 0 = 0 ∧ U'.e 1 1 = 1) (z' : Z'.nr = 1 ∧ Z'.nc = 1 ∧ Z'.e 0 0 = 0) (n : ℕ) :
    Grb.quadratic_expression (np.block_diag [U, Z, Mat.zeros 1 1]) n = Grb.quadratic_expression (np.block_diag [U', Z', Mat.zeros 1 1]) n := by
  have e1 : np.block_diag [U, Z, Mat.zeros 1 1] = Mat.bdiag [U, Z, Mat.zeros 1 1] := if_neg (by simp)
  have e2 : np.block_diag [U', Z', Mat.zeros 1 1] = Mat.bdiag [U', Z', Mat.zeros 1 1] := if_neg (by simp)
  obtain ⟨u1, u2, u3⟩ := u
  obtain ⟨z1, z2, z3⟩ := z
  obtain ⟨v1, v2, v3, v4, v5, v6⟩ := u'
  obtain ⟨w1, w2, w3⟩ := z'
  have n1 : (Mat.bdiag [U, Z, (Mat.zeros 1 1 : Mat ℝ)]).nr = 3 ∧ (Mat.bdiag [U, Z, (Mat.zeros 1 1 : Mat ℝ)]).nc = 3 :=
    ⟨by rw [bdiag_rows]; simp [u1, z1, Mat.zeros], by rw [bdiag_cols]; simp [u2, z2, Mat.zeros]⟩
  have n2 : (Mat.bdiag [U', Z', (Mat.zeros 1 1 : Mat ℝ)]).nr = 4 ∧ (Mat.bdiag [U', Z', (Mat.zeros 1 1 : Mat ℝ)]).nc = 4 :=
    ⟨by rw [bdiag_rows]; simp [v1, w1, Mat.zeros], by rw [bdiag_cols]; simp [v2, w2, Mat.zeros]⟩
  rw [e1, e2]
  unfold Grb.quadratic_expression
  rw [n1.1, n1.2, n2.1, n2.2]
  simp [List.range_succ, List.filter_cons, Mat.bdiag, Mat.bdiag2, Mat.zeros, u1, u2, u3, z1, z2, z3, v1, v2, v3, v4, v5, v6, w1, w2, w3]
  norm_num
  rw [u3, z3, v3, v6]

theorem solve_same (G : Gurobi) {Huu Huu' Hzz Hzz' Hxx Hzx Au Az Ad Ax : Mat ℝ} {b : Vec ℝ}
    (h : ∀ n, Grb.quadratic_expression (np.block_diag [Huu, Hzz, Mat.zeros Ad.nc Ad.nc]) n =
      Grb.quadratic_expression (np.block_diag [Huu', Hzz', Mat.zeros Ad.nc Ad.nc]) n) (x : Vec ℝ) :
    MpMIQP.solve G ⟨Huu, Hzz, Hxx, Hzx, Au, Az, Ad, Ax, b⟩ x = MpMIQP.solve G ⟨Huu', Hzz', Hxx, Hzx, Au, Az, Ad, Ax, b⟩ x := by
  have hm : ∀ nc f A b, Grb.mixed_integer_quadratic_program G nc (np.block_diag [Huu, Hzz, Mat.zeros Ad.nc Ad.nc]) f A b none none =
      Grb.mixed_integer_quadratic_program G nc (np.block_diag [Huu', Hzz', Mat.zeros Ad.nc Ad.nc]) f A b none none := by
    intro nc f A b
    unfold Grb.mixed_integer_quadratic_program Grb.build_model Grb.quadExprs
    simp only [h]
  unfold MpMIQP.solve MpMIQP.standardForm
  simp only
  cases hHx : np.dotMV Hzx x with
  | error e => rfl
  | ok Hx =>
    simp only [Py.ok_bind]
    cases hf : np.concatenate [Vec.zeros Au.nc, Hx, Vec.zeros Ad.nc] with
    | error e => rfl
    | ok f =>
      simp only [Py.ok_bind]
      cases hA : np.hstack [Au, Az, Ad] with
      | error e => rfl
      | ok A =>
        simp only [Py.ok_bind]
        cases hx : np.dotMV Ax x with
        | error e => rfl
        | ok y =>
          simp only [Py.ok_bind]
          cases hb : np.subV b y with
          | error e => rfl
          | ok b' =>
            simp only [Py.ok_bind]
            show (Grb.mixed_integer_quadratic_program G _ _ f A b' none none >>= _) = (Grb.mixed_integer_quadratic_program G _ _ f A b' none none >>= _)
            rw [hm]
            rfl

/-- a terminal weight of the wrong size with a good `Q` is rejected, and so is a terminal set of the wrong dimension; a weight `R` of size 7 is accepted -/
example (L : Lib) (hL : LibSpec L) :
    HMPC.init L (onCube pusher) 3 (diagM [1, 1]) one1 (diagM [7]) (allOf 2) = .error .valueError ∧
    HMPC.init L (onCube pusher) 3 (diagM [1, 1]) one1 (diagM [4, 7]) (allOf 3) = .error .valueError ∧
    ∃ c, HMPC.init L (onCube pusher) 3 (diagM [1, 1]) (Mat.eye 7) (diagM [4, 7]) (allOf 2) = .ok c := by
  have h : ∀ R P X, _ := fun R P X => C143_partial L hL (onCube pusher) (onCube_shape ⟨rfl, rfl, rfl, rfl, rfl⟩ rfl) two_pos (onCube_good rfl) 3 (diagM [1, 1]) R P X
  exact ⟨(h _ _ _).1 fun hh => absurd hh.2.2.1 (by decide), (h _ _ _).1 fun hh => absurd hh.2.1 (by decide), (h _ _ _).2.1 ⟨by norm_num, rfl, rfl, rfl⟩⟩

/-- C143 is false: with one state, two inputs (the second has no effect on the state) and a weight `R` of size 1, the controller pays the terminal cost of
the state for the second input.  Asked to minimize `u0 ² / 2 + x1 ² / 2`, it answers, for every state and whatever the solver is, like the controller which
minimizes `u0 ² / 2 + u1 ² / 2`.  And weights `Q` and `P` of sizes 3 and 1 of a system with two states make the same program as two weights of size 2. -/
theorem C143_false (L : Lib) (hL : LibSpec L) :
    (∃ c c', HMPC.init L (onCube spare) 1 (Mat.zeros 1 1) one1 one1 (allOf 1) = .ok c ∧
      HMPC.init L (onCube spare) 1 (Mat.zeros 1 1) (diagM [1, 1]) (Mat.zeros 1 1) (allOf 1) = .ok c' ∧
      ∀ G x, c.feedforward G x = c'.feedforward G x) ∧
    ∃ c c', HMPC.init L (onCube pusher) 1 (diagM [1, 1, 4]) one1 (diagM [7]) (allOf 2) = .ok c ∧
      HMPC.init L (onCube pusher) 1 (diagM [1, 1]) one1 (diagM [4, 7]) (allOf 2) = .ok c' ∧ c.mpmiqp = c'.mpmiqp := by
  constructor
  · have hS : PwaShape (onCube spare) := onCube_shape ⟨rfl, rfl, rfl, rfl, rfl⟩ rfl
    obtain ⟨al, be, ga, g1, g2, -⟩ := C70 L hL (onCube spare) hS one_pos (onCube_good rfl)
    obtain ⟨a1, a2, -, -⟩ := bigM_dynamics_inv hS g1
    obtain ⟨a3, -, -⟩ := bigM_domains_inv hS g2
    obtain ⟨E, n, e1, e2, e3, e4, e5, e6, -⟩ := build_ok hS rfl rfl a1 a2 a3
    obtain ⟨E', f1, f2, f3, f4, f5, f6⟩ := stack_sizes (allOf 1) one_pos e2 e3 e4 e5
    set A : Mat ℝ := (Mat.eye 1).vapp (Mat.zeros 1 1) with hA
    set B : Mat ℝ := (Mat.zeros 1 1).vapp (np.block_diag [Mat.eye 1]) with hB
    have k0 : condense_equalities (onCube spare).nx (onCube spare).nm 1 = .ok (A, B) := by
      have v1 : np.vstack [Mat.eye 1, Mat.zeros (1 * 1) 1] = .ok A := vstack_two rfl
      have v2 : np.vstack [Mat.zeros 1 (np.block_diag [(Mat.eye 1 : Mat ℝ)]).nc, np.block_diag [Mat.eye 1]] = .ok B := vstack_two rfl
      show condense_equalities 1 1 1 = _
      unfold condense_equalities
      rw [v1, Py.ok_bind, show np.hstack (List.replicate 1 (Mat.eye 1 : Mat ℝ)) = .ok (Mat.eye 1) from rfl, Py.ok_bind]
      simp only [List.replicate_one]
      rw [v2]
      rfl
    have hBe : np.block_diag [(Mat.eye 1 : Mat ℝ)] = Mat.bdiag [Mat.eye 1] := if_neg (by simp)
    have key : ∀ R P : Mat ℝ, P.nr = 1 → P.nc = 1 → ∃ c, HMPC.init L (onCube spare) 1 (Mat.zeros 1 1) R P (allOf 1) = .ok c ∧
        c.S = onCube spare ∧ c.N = 1 ∧ ∃ Hzz : Mat ℝ, (Hzz.nr = 1 ∧ Hzz.nc = 1 ∧ Hzz.e 0 0 = P.e 0 0) ∧
          c.mpmiqp = ⟨np.block_diag [R], Hzz, Mat.zeros 1 1, Mat.zeros 1 1, E'.u, E'.z.add (E'.x.mul B), E'.d, E'.x.mul A, E'.h⟩ := by
      intro R P hP1 hP2
      have hQ : np.block_diag (List.replicate 1 (Mat.zeros 1 1) ++ [P]) = Mat.bdiag [Mat.zeros 1 1, P] := if_neg (by simp)
      set Qb := Mat.bdiag [Mat.zeros 1 1, P] with hQb
      have q1 : Qb.nr = 2 := by rw [hQb, bdiag_rows]; simp [hP1, Mat.zeros]
      have q2 : Qb.nc = 2 := by rw [hQb, bdiag_cols]; simp [hP2, Mat.zeros]
      have as : assemble 1 (Mat.zeros 1 1) R P E' A B = .ok ⟨np.block_diag [R], (B.T.mul Qb).mul B, (A.T.mul Qb).mul A, (B.T.mul Qb).mul A, E'.u,
          E'.z.add (E'.x.mul B), E'.d, E'.x.mul A, E'.h⟩ := by
        have c1 : np.dotMM B.T Qb = .ok (B.T.mul Qb) := if_pos (by rw [q1]; rfl)
        have c2 : np.dotMM (B.T.mul Qb) B = .ok ((B.T.mul Qb).mul B) := if_pos (by show Qb.nc = _; rw [q2]; rfl)
        have c3 : np.dotMM (B.T.mul Qb) A = .ok ((B.T.mul Qb).mul A) := if_pos (by show Qb.nc = _; rw [q2]; rfl)
        have c4 : np.dotMM A.T Qb = .ok (A.T.mul Qb) := if_pos (by rw [q1]; rfl)
        have c5 : np.dotMM (A.T.mul Qb) A = .ok ((A.T.mul Qb).mul A) := if_pos (by show Qb.nc = _; rw [q2]; rfl)
        have c6 : np.dotMM E'.x B = .ok (E'.x.mul B) := if_pos (by rw [f3]; rfl)
        have c7 : np.addM E'.z (E'.x.mul B) = .ok (E'.z.add (E'.x.mul B)) := if_pos ⟨f4.trans f2.symm, by rw [f5]; rfl⟩
        have c8 : np.dotMM E'.x A = .ok (E'.x.mul A) := if_pos (by rw [f3]; rfl)
        unfold assemble
        simp only [hQ]
        rw [c1, Py.ok_bind, c2, Py.ok_bind, c3, Py.ok_bind, c4, Py.ok_bind, c5, Py.ok_bind, c6, Py.ok_bind, c7, Py.ok_bind, c8]
        rfl
      have z1 : (A.T.mul Qb).mul A = Mat.zeros 1 1 := by
        have : ∀ i j, ((A.T.mul Qb).mul A).e i j = 0 := by
          intro i j
          simp [Mat.mul, Mat.T, q1, q2, hA, Mat.vapp, Mat.eye, Mat.zeros, hQb, Mat.bdiag, Mat.bdiag2, Finset.sum_range_succ]
        show Mat.mk _ _ _ = _
        exact congrArg (Mat.mk 1 1) (funext fun i => funext fun j => this i j)
      have z2 : (B.T.mul Qb).mul A = Mat.zeros 1 1 := by
        have : ∀ i j, ((B.T.mul Qb).mul A).e i j = 0 := by
          intro i j
          simp [Mat.mul, Mat.T, q1, q2, hA, hB, hBe, Mat.vapp, Mat.eye, Mat.zeros, hQb, Mat.bdiag, Mat.bdiag2, Finset.sum_range_succ]
        exact congrArg (Mat.mk 1 1) (funext fun i => funext fun j => this i j)
      rw [z1, z2] at as
      refine ⟨⟨onCube spare, 1, Mat.zeros 1 1, R, P, allOf 1, al, be, ga, _⟩, ?_, rfl, rfl, (B.T.mul Qb).mul B, ⟨rfl, rfl, ?_⟩, rfl⟩
      · unfold HMPC.init condense_hybrid
        rw [g1, Py.ok_bind]
        simp only
        rw [g2, Py.ok_bind, e1, Py.ok_bind, f1, Py.ok_bind, k0, Py.ok_bind]
        simp only
        rw [as]
        rfl
      · have h0 : B.nr = 2 := rfl
        have h1 : B.e 0 0 = 0 := rfl
        have h2 : B.e 1 0 = 1 := by
          rw [hB, hBe]
          simp [Mat.vapp, Mat.eye, Mat.zeros, Mat.bdiag, Mat.bdiag2]
        have h3 : Qb.e 1 1 = P.e 0 0 := by
          rw [hQb]
          simp [Mat.zeros, Mat.bdiag, Mat.bdiag2, hP1, hP2]
        show ∑ k ∈ range Qb.nc, (∑ l ∈ range B.nr, B.e l 0 * Qb.e l k) * B.e k 0 = _
        rw [q2, h0]
        simp [Finset.sum_range_succ, h1, h2, h3]
    obtain ⟨c, hc, s1, s2, Z, hZ, s3⟩ := key one1 one1 rfl rfl
    obtain ⟨c', hc', t1, t2, Z', hZ', t3⟩ := key (diagM [1, 1]) (Mat.zeros 1 1) rfl rfl
    refine ⟨c, c', hc, hc', fun G x => ?_⟩
    have hd : E'.d.nc = 1 := f6
    have b1 : np.block_diag [one1] = Mat.bdiag [one1] := if_neg (by simp)
    have b2 : np.block_diag [diagM [1, 1]] = Mat.bdiag [diagM [1, 1]] := if_neg (by simp)
    have hs : c.mpmiqp.solve G x = c'.mpmiqp.solve G x := by
      rw [s3, t3]
      refine solve_same G (fun n => ?_) x
      rw [hd, b1, b2]
      refine same_terms ⟨rfl, rfl, ?_⟩ hZ ⟨rfl, rfl, ?_, ?_, ?_, ?_⟩ hZ' n <;> simp [Mat.bdiag, Mat.bdiag2, one1, diagM]
    unfold HMPC.feedforward
    rw [hs, s1, s2, t1, t2]
  · have hS : PwaShape (onCube pusher) := onCube_shape ⟨rfl, rfl, rfl, rfl, rfl⟩ rfl
    obtain ⟨c', hc'⟩ := (C143_partial L hL (onCube pusher) hS two_pos (onCube_good rfl) 1 (diagM [1, 1]) one1 (diagM [4, 7]) (allOf 2)).2.1
      ⟨one_pos, rfl, rfl, rfl⟩
    refine ⟨{ c' with Q := diagM [1, 1, 4], P := diagM [7] }, c', ?_, hc', rfl⟩
    unfold HMPC.init at hc' ⊢
    obtain ⟨⟨al, be⟩, g1, hc'⟩ := Py.bind_eq_ok hc'
    obtain ⟨ga, g2, hc'⟩ := Py.bind_eq_ok hc'
    obtain ⟨q, g3, hc'⟩ := Py.bind_eq_ok hc'
    have hq : condense_hybrid (onCube pusher) 1 (diagM [1, 1, 4]) one1 (diagM [7]) (allOf 2) al be ga = .ok q := by
      rw [← g3]
      have e : ∀ Q P : Mat ℝ, np.block_diag (List.replicate 1 Q ++ [P]) = Mat.bdiag [Q, P] := fun Q P => if_neg (by simp)
      unfold condense_hybrid assemble
      simp only [e, diagM_bdiag]
    cases hc'
    rw [g1, Py.ok_bind]
    simp only
    rw [g2, Py.ok_bind, hq]
    rfl

end Verif.Props
