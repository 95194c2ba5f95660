import Verif.Model.Controllers
import Verif.Spec.Control
import Verif.Proofs.Condense
import Verif.Proofs.MpQPSolve

/- The condensed optimal control problem. -/
namespace Verif
namespace Control
open Finset Spec Dyn

/-- `x M y` -/
def bil (M : Mat ℝ) (x y : ℕ → ℝ) : ℝ := ∑ i ∈ range M.nr, x i * rowVal M i y

theorem quad_bil (M : Mat ℝ) (x : ℕ → ℝ) : quad M x = bil M x x := by
  unfold quad bil rowVal
  refine Finset.sum_congr rfl fun i _ => ?_
  rw [Finset.mul_sum]
  exact Finset.sum_congr rfl fun j _ => by ring

theorem bil_add_right (M : Mat ℝ) (x y z : ℕ → ℝ) : bil M x (fun i => y i + z i) = bil M x y + bil M x z := by
  unfold bil
  simp only [rowVal_add', mul_add, Finset.sum_add_distrib]

theorem bil_add_left (M : Mat ℝ) (x y z : ℕ → ℝ) : bil M (fun i => x i + y i) z = bil M x z + bil M y z := by
  unfold bil
  simp only [add_mul, Finset.sum_add_distrib]

theorem bil_symm {n : ℕ} {M : Mat ℝ} (h : SymMat n M) (x y : ℕ → ℝ) : bil M x y = bil M y x := by
  obtain ⟨h1, h2, h3⟩ := h
  unfold bil rowVal
  rw [h1, h2]
  simp only [Finset.mul_sum]
  rw [Finset.sum_comm]
  refine Finset.sum_congr rfl fun i hi => Finset.sum_congr rfl fun j hj => ?_
  rw [h3 j (mem_range.1 hj) i (mem_range.1 hi)]
  ring

theorem bil_congr {n : ℕ} {M : Mat ℝ} (h1 : M.nr = n) (h2 : M.nc = n) {x x' y y' : ℕ → ℝ} (hx : ∀ i < n, x i = x' i)
    (hy : ∀ i < n, y i = y' i) : bil M x y = bil M x' y' := by
  unfold bil
  refine Finset.sum_congr rfl fun i hi => ?_
  rw [hx i (by rw [← h1]; exact mem_range.1 hi), rowVal_congr' i fun j hj => hy j (h2 ▸ hj)]

theorem quad_congr {n : ℕ} {M : Mat ℝ} (h1 : M.nr = n) (h2 : M.nc = n) {x x' : ℕ → ℝ} (hx : ∀ i < n, x i = x' i) :
    quad M x = quad M x' := by
  rw [quad_bil, quad_bil, bil_congr h1 h2 hx hx]

/-- `x (Aᵀ M B) y = (A x) M (B y)` -/
theorem bil_sandwich {A M B : Mat ℝ} (h1 : A.nr = M.nr) (h2 : M.nc = B.nr) (x y : ℕ → ℝ) :
    bil ((A.T.mul M).mul B) x y = bil M (fun i => rowVal A i x) (fun i => rowVal B i y) := by
  unfold bil
  have e : ∀ i, rowVal ((A.T.mul M).mul B) i y = ∑ k ∈ range M.nr, A.e k i * rowVal M k (fun k => rowVal B k y) := by
    intro i
    rw [rowVal_mul (by exact h2), rowVal_mul (by exact h1)]
    unfold rowVal
    show ∑ k ∈ range A.nr, A.e k i * _ = _
    rw [h1]
  simp only [e, Finset.mul_sum]
  rw [show ((A.T.mul M).mul B).nr = A.nc from rfl, Finset.sum_comm]
  refine Finset.sum_congr rfl fun k _ => ?_
  rw [show rowVal A k x = ∑ j ∈ range A.nc, A.e k j * x j from rfl, Finset.sum_mul]
  exact Finset.sum_congr rfl fun j _ => by ring

/-- `(Aᵀ M c) x = (A x) M c` -/
theorem dot_sandwich {A M : Mat ℝ} {c : Vec ℝ} (h1 : A.nr = M.nr) (h2 : M.nc = c.n) (x : ℕ → ℝ) :
    ∑ j ∈ range A.nc, ((A.T.mul M).mulVec c).e j * x j = bil M (fun i => rowVal A i x) c.e := by
  have e : ∀ j, ((A.T.mul M).mulVec c).e j = ∑ k ∈ range M.nr, A.e k j * rowVal M k c.e := by
    intro j
    rw [Mat.mulVec_e]
    show rowVal (A.T.mul M) j c.e = _
    rw [rowVal_mul (by exact h1)]
    show ∑ k ∈ range A.nr, A.e k j * _ = _
    rw [h1]
  simp only [e, Finset.sum_mul]
  unfold bil
  rw [Finset.sum_comm]
  refine Finset.sum_congr rfl fun k _ => ?_
  show _ = rowVal A k x * rowVal M k c.e
  rw [show rowVal A k x = ∑ j ∈ range A.nc, A.e k j * x j from rfl, Finset.sum_mul]
  exact Finset.sum_congr rfl fun j _ => by ring

/-! ### block diagonal matrices -/

theorem rowVal_bdiag2_lt (A B : Mat ℝ) {i : ℕ} (h : i < A.nr) (y : ℕ → ℝ) : rowVal (A.bdiag2 B) i y = rowVal A i y := by
  unfold rowVal Mat.bdiag2
  simp only [h, if_true]
  rw [Finset.sum_range_add]
  have : ∑ x ∈ range B.nc, (if A.nc + x < A.nc then A.e i (A.nc + x) else 0) * y (A.nc + x) = 0 :=
    Finset.sum_eq_zero fun x _ => by simp
  rw [this, add_zero]
  exact Finset.sum_congr rfl fun j hj => by rw [if_pos (mem_range.1 hj)]

theorem rowVal_bdiag2_add (A B : Mat ℝ) (i : ℕ) (y : ℕ → ℝ) :
    rowVal (A.bdiag2 B) (A.nr + i) y = rowVal B i (fun j => y (A.nc + j)) := by
  unfold rowVal Mat.bdiag2
  simp only [show ¬ A.nr + i < A.nr by omega, if_false]
  rw [Finset.sum_range_add]
  have : ∑ x ∈ range A.nc, (if x < A.nc then 0 else B.e (A.nr + i - A.nr) (x - A.nc)) * y x = 0 :=
    Finset.sum_eq_zero fun x hx => by rw [if_pos (mem_range.1 hx), zero_mul]
  rw [this, zero_add]
  exact Finset.sum_congr rfl fun j hj => by
    rw [if_neg (by omega), Nat.add_sub_cancel_left, Nat.add_sub_cancel_left]

theorem bil_bdiag2 (A B : Mat ℝ) (h : A.nr = A.nc) (x y : ℕ → ℝ) :
    bil (A.bdiag2 B) x y = bil A x y + bil B (fun i => x (A.nr + i)) (fun i => y (A.nr + i)) := by
  unfold bil
  rw [show (A.bdiag2 B).nr = A.nr + B.nr from rfl, Finset.sum_range_add]
  congr 1
  · exact Finset.sum_congr rfl fun i hi => by rw [rowVal_bdiag2_lt _ _ (mem_range.1 hi)]
  · exact Finset.sum_congr rfl fun i hi => by rw [rowVal_bdiag2_add, h]

/-- sizes of the block diagonal matrix of weights -/
theorem bdiag_rep_shape {n : ℕ} {Q P : Mat ℝ} (hQ1 : Q.nr = n) (hQ2 : Q.nc = n) (hP1 : P.nr = n) (hP2 : P.nc = n) (N : ℕ) :
    (Mat.bdiag (List.replicate N Q ++ [P])).nr = n * (N + 1) ∧ (Mat.bdiag (List.replicate N Q ++ [P])).nc = n * (N + 1) := by
  induction N with
  | zero => simp [Mat.bdiag, Mat.bdiag2, hP1, hP2]
  | succ N ih =>
    obtain ⟨i1, i2⟩ := ih
    constructor
    · show Q.nr + (Mat.bdiag (List.replicate N Q ++ [P])).nr = _
      rw [i1, hQ1]; ring
    · show Q.nc + (Mat.bdiag (List.replicate N Q ++ [P])).nc = _
      rw [i2, hQ2]; ring

theorem bil_nil (x y : ℕ → ℝ) : bil (Mat.bdiag []) x y = 0 := by
  simp [bil, Mat.bdiag]

theorem bil_bdiag_rep {n : ℕ} {Q P : Mat ℝ} (hQ1 : Q.nr = n) (hQ2 : Q.nc = n) (hP1 : P.nr = n) (hP2 : P.nc = n) :
    ∀ (N : ℕ) (x y : ℕ → ℝ), bil (Mat.bdiag (List.replicate N Q ++ [P])) x y
      = ∑ t ∈ range N, bil Q (fun i => x (n * t + i)) (fun i => y (n * t + i)) + bil P (fun i => x (n * N + i)) (fun i => y (n * N + i))
  | 0, x, y => by
    show bil (P.bdiag2 (Mat.bdiag [])) x y = _
    rw [bil_bdiag2 _ _ (hP1.trans hP2.symm), bil_nil]
    simp
  | N + 1, x, y => by
    show bil (Q.bdiag2 (Mat.bdiag (List.replicate N Q ++ [P]))) x y = _
    rw [bil_bdiag2 _ _ (hQ1.trans hQ2.symm), bil_bdiag_rep hQ1 hQ2 hP1 hP2 N, Finset.sum_range_succ', hQ1]
    have e : ∀ t i, n * (t + 1) + i = n + (n * t + i) := fun t i => by ring
    simp only [e, Nat.mul_zero, Nat.zero_add]
    ring

theorem bdiag_rep' {n : ℕ} {R : Mat ℝ} (h1 : R.nr = n) (h2 : R.nc = n) : ∀ (N : ℕ),
    (Mat.bdiag (List.replicate N R)).nr = n * N ∧ (Mat.bdiag (List.replicate N R)).nc = n * N ∧
    ∀ x y, bil (Mat.bdiag (List.replicate N R)) x y = ∑ t ∈ range N, bil R (fun i => x (n * t + i)) (fun i => y (n * t + i))
  | 0 => ⟨by simp [Mat.bdiag], by simp [Mat.bdiag], fun x y => by rw [Finset.range_zero, Finset.sum_empty]; exact bil_nil x y⟩
  | N + 1 => by
    obtain ⟨i1, i2, i3⟩ := bdiag_rep' h1 h2 N
    refine ⟨?_, ?_, fun x y => ?_⟩
    · show R.nr + _ = _
      rw [i1, h1]; ring
    · show R.nc + _ = _
      rw [i2, h2]; ring
    · show bil (R.bdiag2 (Mat.bdiag (List.replicate N R))) x y = _
      rw [bil_bdiag2 _ _ (h1.trans h2.symm), i3, Finset.sum_range_succ', h1]
      have e : ∀ t i, n * (t + 1) + i = n + (n * t + i) := fun t i => by ring
      simp only [e, Nat.mul_zero, Nat.zero_add]
      ring

/-- the block diagonal matrix of symmetric blocks is symmetric, as a bilinear form -/
theorem bil_rep_symm {n : ℕ} {Q P : Mat ℝ} (hQ : SymMat n Q) (hP : SymMat n P) (N : ℕ) (x y : ℕ → ℝ) :
    bil (Mat.bdiag (List.replicate N Q ++ [P])) x y = bil (Mat.bdiag (List.replicate N Q ++ [P])) y x := by
  rw [bil_bdiag_rep hQ.1 hQ.2.1 hP.1 hP.2.1, bil_bdiag_rep hQ.1 hQ.2.1 hP.1 hP.2.1, bil_symm hP]
  congr 1
  exact Finset.sum_congr rfl fun t _ => bil_symm hQ _ _

/-! ### the stacked constraints -/

/-- the stacked right-hand side -/
theorem concat_cons {b c : Vec ℝ} {l : List (Vec ℝ)} : Vec.concat (b :: (l ++ [c])) = b.append (Vec.concat (l ++ [c])) := by
  cases l <;> rfl

/-- `F y + G v ≤ h` for the stacked matrices means that all the blocks hold -/
theorem stack_iff {nx nu : ℕ} (XA : Mat ℝ) (Xb : Vec ℝ) (hX : XA.nc = nx) (hXb : Xb.n = XA.nr) :
    ∀ (Fs Gs : List (Mat ℝ)) (hs : List (Vec ℝ)), Fs.length = Gs.length → Fs.length = hs.length →
      (∀ k < Fs.length, (Fs.getD k mat0).nc = nx ∧ (Gs.getD k mat0).nc = nu ∧ (Gs.getD k mat0).nr = (Fs.getD k mat0).nr ∧
        (hs.getD k vec0).n = (Fs.getD k mat0).nr) →
      (Mat.bdiag (Fs ++ [XA])).nr = (Mat.bdiag Gs).nr + XA.nr ∧ (Mat.bdiag (Fs ++ [XA])).nc = nx * (Fs.length + 1) ∧
      (Mat.bdiag Gs).nc = nu * Fs.length ∧ (Vec.concat (hs ++ [Xb])).n = (Mat.bdiag (Fs ++ [XA])).nr ∧
      ∀ (y v : ℕ → ℝ) (Z : ℕ), ((∀ i < (Mat.bdiag (Fs ++ [XA])).nr, rowVal (Mat.bdiag (Fs ++ [XA])) i y
          + rowVal ((Mat.bdiag Gs).vapp (Mat.zeros XA.nr Z)) i v ≤ (Vec.concat (hs ++ [Xb])).e i) ↔
        (∀ k < Fs.length, ∀ i < (Fs.getD k mat0).nr, rowVal (Fs.getD k mat0) i (fun j => y (nx * k + j))
          + rowVal (Gs.getD k mat0) i (fun j => v (nu * k + j)) ≤ (hs.getD k vec0).e i) ∧
        ∀ i < XA.nr, rowVal XA i (fun j => y (nx * Fs.length + j)) ≤ Xb.e i)
  | [], Gs, hs, hl1, hl2, _ => by
    obtain rfl : Gs = [] := List.length_eq_zero_iff.1 hl1.symm
    obtain rfl : hs = [] := List.length_eq_zero_iff.1 hl2.symm
    have e : Mat.bdiag ([] ++ [XA]) = XA.bdiag2 (Mat.bdiag []) := rfl
    have e1 : (Mat.bdiag ([] ++ [XA])).nr = XA.nr := by rw [e]; simp [Mat.bdiag2, Mat.bdiag]
    have e2 : (Mat.bdiag ([] ++ [XA])).nc = XA.nc := by rw [e]; simp [Mat.bdiag2, Mat.bdiag]
    refine ⟨by rw [e1]; simp [Mat.bdiag], by rw [e2, hX]; simp, by simp [Mat.bdiag], by rw [e1]; exact hXb, fun y v Z => ?_⟩
    rw [e1]
    constructor
    · intro h
      refine ⟨fun k hk => absurd hk (by simp), fun i hi => ?_⟩
      have := h i hi
      rw [e, rowVal_bdiag2_lt _ _ hi] at this
      have z : rowVal ((Mat.bdiag []).vapp (Mat.zeros XA.nr Z)) i v = 0 := by
        simp [rowVal, Mat.bdiag, Mat.vapp]
      rw [z] at this
      simpa [Vec.concat] using this
    · rintro ⟨-, h⟩ i hi
      rw [e, rowVal_bdiag2_lt _ _ hi]
      have z : rowVal ((Mat.bdiag []).vapp (Mat.zeros XA.nr Z)) i v = 0 := by
        simp [rowVal, Mat.bdiag, Mat.vapp]
      rw [z]
      simpa [Vec.concat] using h i hi
  | F :: Fs, G :: Gs, h :: hs, hl1, hl2, hsh => by
    obtain ⟨i1, i2, i3, i4, i5⟩ := stack_iff XA Xb hX hXb Fs Gs hs (by simpa using hl1) (by simpa using hl2)
      fun k hk => by simpa using hsh (k + 1) (by simpa using hk)
    obtain ⟨f1, f2, f3, f4⟩ := hsh 0 (by simp)
    simp only [List.getD_cons_zero] at f1 f2 f3 f4
    have e : Mat.bdiag ((F :: Fs) ++ [XA]) = F.bdiag2 (Mat.bdiag (Fs ++ [XA])) := rfl
    have eG : Mat.bdiag (G :: Gs) = G.bdiag2 (Mat.bdiag Gs) := rfl
    have eh : Vec.concat ((h :: hs) ++ [Xb]) = h.append (Vec.concat (hs ++ [Xb])) := concat_cons
    refine ⟨?_, ?_, ?_, ?_, fun y v Z => ?_⟩
    · rw [e, eG]
      show F.nr + _ = G.nr + _ + _
      rw [i1, f3]; ring
    · rw [e]
      show F.nc + _ = _
      rw [i2, f1, List.length_cons]; ring
    · rw [eG]
      show G.nc + _ = _
      rw [i3, f2, List.length_cons]; ring
    · rw [eh, e]
      show h.n + _ = F.nr + _
      rw [i4, f4]
    · have r1 : ∀ i < F.nr, rowVal (F.bdiag2 (Mat.bdiag (Fs ++ [XA]))) i y
            + rowVal ((G.bdiag2 (Mat.bdiag Gs)).vapp (Mat.zeros XA.nr Z)) i v = rowVal F i y + rowVal G i v := by
        intro i hi
        rw [rowVal_bdiag2_lt _ _ hi]
        congr 1
        rw [← rowVal_bdiag2_lt G (Mat.bdiag Gs) (f3 ▸ hi)]
        exact Finset.sum_congr rfl fun j _ => by
          rw [Mat.vapp_e_lt _ _ _ (by show i < G.nr + _; rw [f3]; omega)]
      have r2 : ∀ i, rowVal (F.bdiag2 (Mat.bdiag (Fs ++ [XA]))) (F.nr + i) y
            + rowVal ((G.bdiag2 (Mat.bdiag Gs)).vapp (Mat.zeros XA.nr Z)) (F.nr + i) v
          = rowVal (Mat.bdiag (Fs ++ [XA])) i (fun j => y (nx + j))
            + rowVal ((Mat.bdiag Gs).vapp (Mat.zeros XA.nr Z)) i (fun j => v (nu + j)) := by
        intro i
        rw [rowVal_bdiag2_add, f1]
        congr 1
        rw [← f3, ← f2]
        by_cases hi : i < (Mat.bdiag Gs).nr
        · rw [show rowVal ((Mat.bdiag Gs).vapp (Mat.zeros XA.nr Z)) i (fun j => v (G.nc + j))
              = rowVal (Mat.bdiag Gs) i (fun j => v (G.nc + j)) from
            Finset.sum_congr rfl fun j _ => by rw [Mat.vapp_e_lt _ _ _ hi], ← rowVal_bdiag2_add]
          exact Finset.sum_congr rfl fun j _ => by
            rw [Mat.vapp_e_lt _ _ _ (by show _ < G.nr + _; omega)]
        · obtain ⟨k, rfl⟩ := Nat.exists_eq_add_of_le (not_lt.1 hi)
          have z1 : rowVal ((Mat.bdiag Gs).vapp (Mat.zeros XA.nr Z)) ((Mat.bdiag Gs).nr + k) (fun j => v (G.nc + j)) = 0 :=
            Finset.sum_eq_zero fun j _ => by rw [Mat.vapp_e_add]; simp
          have z2 : rowVal ((G.bdiag2 (Mat.bdiag Gs)).vapp (Mat.zeros XA.nr Z)) (G.nr + ((Mat.bdiag Gs).nr + k)) v = 0 :=
            Finset.sum_eq_zero fun j _ => by
              rw [show G.nr + ((Mat.bdiag Gs).nr + k) = (G.bdiag2 (Mat.bdiag Gs)).nr + k by
                show _ = G.nr + _ + k; ring, Mat.vapp_e_add]; simp
          rw [z1, z2]
      rw [e, eG, eh, show (F.bdiag2 (Mat.bdiag (Fs ++ [XA]))).nr = F.nr + (Mat.bdiag (Fs ++ [XA])).nr from rfl, forall_lt_add]
      have s1 : (∀ i < F.nr, rowVal (F.bdiag2 (Mat.bdiag (Fs ++ [XA]))) i y
            + rowVal ((G.bdiag2 (Mat.bdiag Gs)).vapp (Mat.zeros XA.nr Z)) i v ≤ (h.append (Vec.concat (hs ++ [Xb]))).e i) ↔
          ∀ i < F.nr, rowVal F i y + rowVal G i v ≤ h.e i :=
        forall_congr' fun i => forall_congr' fun hi => by rw [r1 i hi, Vec.append_e_lt _ _ (f4 ▸ hi)]
      have s2 : (∀ i < (Mat.bdiag (Fs ++ [XA])).nr, rowVal (F.bdiag2 (Mat.bdiag (Fs ++ [XA]))) (F.nr + i) y
            + rowVal ((G.bdiag2 (Mat.bdiag Gs)).vapp (Mat.zeros XA.nr Z)) (F.nr + i) v ≤ (h.append (Vec.concat (hs ++ [Xb]))).e (F.nr + i)) ↔
          ∀ i < (Mat.bdiag (Fs ++ [XA])).nr, rowVal (Mat.bdiag (Fs ++ [XA])) i (fun j => y (nx + j))
            + rowVal ((Mat.bdiag Gs).vapp (Mat.zeros XA.nr Z)) i (fun j => v (nu + j)) ≤ (Vec.concat (hs ++ [Xb])).e i :=
        forall_congr' fun i => forall_congr' fun hi => by rw [r2 i, ← f4, Vec.append_e_add]
      rw [s1, s2, i5]
      have m : ∀ a k j : ℕ, a * (k + 1) + j = a + (a * k + j) := fun a k j => by ring
      constructor
      · rintro ⟨h1, h2, h3⟩
        refine ⟨fun k hk => ?_, fun i hi => ?_⟩
        · cases k with
          | zero => simpa using h1
          | succ k =>
            simp only [List.getD_cons_succ, m]
            exact h2 k (by simpa using hk)
        · simp only [List.length_cons, m]
          exact h3 i hi
      · rintro ⟨h1, h2⟩
        refine ⟨by simpa using h1 0 (by simp), fun k hk => ?_, fun i hi => ?_⟩
        · have := h1 (k + 1) (by simpa using hk)
          simpa only [List.getD_cons_succ, m] using this
        · have := h2 i hi
          simpa only [List.length_cons, m] using this

/-- the domain constraints of the two blocks -/
theorem rowVal_cols {A : Mat ℝ} {nx nu : ℕ} (h : A.nc = nx + nu) (i : ℕ) (x u : ℕ → ℝ) :
    rowVal (A.colsTo nx) i x + rowVal (A.colsFrom nx) i u = rowVal A i (pair nx x u) := by
  unfold rowVal pair
  rw [h, Finset.sum_range_add]
  congr 1
  · refine Finset.sum_congr (by simp [Mat.colsTo, h]) fun j hj => ?_
    rw [if_pos (by simp [Mat.colsTo, h] at hj; exact hj)]
    rfl
  · refine Finset.sum_congr (by simp [Mat.colsFrom, h]) fun j hj => ?_
    rw [if_neg (by omega), Nat.add_sub_cancel_left]
    rfl

/-- the arguments of `condense_optimal_control_problem` have consistent sizes -/
structure OcpShape (S : PWA) (Q R P : Mat ℝ) (X_N : Poly) (modes : List ℕ) : Prop where
  len : S.affine_systems.length = S.domains.length
  sys : ∀ T ∈ S.affine_systems, SystemShape S.nx S.nu T.A T.B T.c ∧ T.nx = S.nx ∧ T.nu = S.nu
  dom : ∀ D ∈ S.domains, D.A.nc = S.nx + S.nu ∧ D.b.n = D.A.nr
  Q : Q.nr = S.nx ∧ Q.nc = S.nx
  R : R.nr = S.nu ∧ R.nc = S.nu
  P : P.nr = S.nx ∧ P.nc = S.nx
  XN : X_N.A.nc = S.nx ∧ X_N.b.n = X_N.A.nr
  ne : modes ≠ []
  modes : ∀ m ∈ modes, m < S.affine_systems.length

/-- placeholder in `getD` -/
noncomputable def sys0 : AffineSystem := ⟨mat0, mat0, vec0, 0, 0⟩
/-- placeholder in `getD` -/
noncomputable def poly0 : Poly := Poly.fresh mat0 vec0 mat0 vec0

/-- the states of the system in the given modes -/
noncomputable def pwaTraj (S : PWA) (modes : List ℕ) (x0 : ℕ → ℝ) (u : ℕ → ℕ → ℝ) : ℕ → ℕ → ℝ :=
  traj (fun t => (S.affine_systems.getD (modes.getD t 0) sys0).A) (fun t => (S.affine_systems.getD (modes.getD t 0) sys0).B)
    (fun t => (S.affine_systems.getD (modes.getD t 0) sys0).c) x0 u

theorem condense_run {S : PWA} {Q R P : Mat ℝ} {X_N : Poly} {modes : List ℕ} (h : OcpShape S Q R P X_N modes) :
    ∃ A_bar B_bar c_bar, S.condense modes = .ok (A_bar, B_bar, c_bar) ∧
      A_bar.nr = S.nx * (modes.length + 1) ∧ A_bar.nc = S.nx ∧
      B_bar.nr = S.nx * (modes.length + 1) ∧ B_bar.nc = S.nu * modes.length ∧ c_bar.n = S.nx * (modes.length + 1) ∧
      ∀ (x0 : ℕ → ℝ) (v : ℕ → ℝ), ∀ t ≤ modes.length, ∀ i < S.nx,
        rowVal A_bar (S.nx * t + i) x0 + rowVal B_bar (S.nx * t + i) v + c_bar.e (S.nx * t + i)
          = pwaTraj S modes x0 (unflat S.nu v) t i := by
  obtain ⟨m, hm⟩ := List.exists_mem_of_ne_nil _ h.ne
  have hpos : 0 < S.affine_systems.length := lt_of_le_of_lt (Nat.zero_le _) (h.modes m hm)
  set S0 := S.affine_systems[0] with hS0
  have h0 : S.affine_systems[0]? = some S0 := by rw [List.getElem?_eq_getElem hpos]
  obtain ⟨-, e1, e2⟩ := h.sys S0 (List.getElem_mem hpos)
  obtain ⟨A, B, c, k1, k2, k3, k4, k5, k6, k7⟩ := condense_ok h0 (fun T hT => by rw [e1, e2]; exact (h.sys T hT).1) h.modes h.ne
  rw [e1, e2] at *
  refine ⟨A, B, c, k1, k2, k3, k4, k5, k6, fun x0 v t ht i hi => ?_⟩
  rw [k7 x0 (unflat S.nu v) v (fun _ _ _ _ => rfl) t ht i hi]
  unfold pwaTraj
  have hd : ∀ s < modes.length, S.affine_systems.getD (modes.getD s 0) S0 = S.affine_systems.getD (modes.getD s 0) sys0 := by
    intro s hs
    have := h.modes _ (getD_mem 0 hs)
    rw [List.getD_eq_getElem _ _ this, List.getD_eq_getElem _ _ this]
  have : ∀ s ≤ modes.length, traj (fun t => (S.affine_systems.getD (modes.getD t 0) S0).A) (fun t => (S.affine_systems.getD (modes.getD t 0) S0).B)
      (fun t => (S.affine_systems.getD (modes.getD t 0) S0).c) x0 (unflat S.nu v) s
    = traj (fun t => (S.affine_systems.getD (modes.getD t 0) sys0).A) (fun t => (S.affine_systems.getD (modes.getD t 0) sys0).B)
      (fun t => (S.affine_systems.getD (modes.getD t 0) sys0).c) x0 (unflat S.nu v) s := by
    intro s
    induction s with
    | zero => intro _; rfl
    | succ s ih =>
      intro hs
      simp only [traj]
      rw [ih (by omega), hd s (by omega)]
  rw [this t ht]

theorem getD_map' {α β : Type} {l : List α} {k : ℕ} (hk : k < l.length) (f : α → β) (a : α) (b : β) :
    (l.map f).getD k b = f (l.getD k a) := by
  rw [List.getD_eq_getElem _ _ (by simpa using hk), List.getD_eq_getElem _ _ hk, List.getElem_map]

theorem bdiag_rows : ∀ l : List (Mat ℝ), (Mat.bdiag l).nr = (l.map (·.nr)).sum
  | [] => rfl
  | A :: l => by
    show A.nr + (Mat.bdiag l).nr = _
    rw [bdiag_rows l]
    rfl

/-- the condensed program -/
theorem ocp_run {S : PWA} {Q R P : Mat ℝ} {X_N : Poly} {modes : List ℕ} (h : OcpShape S Q R P X_N modes) :
    ∃ d : ParamQP, condense_optimal_control_problem S Q R P X_N modes = MpQP.init d.Huu d.Hux d.Hxx d.fu d.fx d.g d.Au d.Ax d.b ∧
      (d.Huu.nr = S.nu * modes.length ∧ d.Huu.nc = S.nu * modes.length ∧ d.Hux.nr = S.nu * modes.length ∧ d.Hux.nc = S.nx ∧
        d.Hxx.nr = S.nx ∧ d.Hxx.nc = S.nx ∧ d.fu.n = S.nu * modes.length ∧ d.fx.n = S.nx ∧ d.Au.nc = S.nu * modes.length ∧
        d.Ax.nc = S.nx ∧ d.Ax.nr = d.Au.nr ∧ d.b.n = d.Au.nr ∧
        d.Au.nr = (modes.map fun m => (S.domains.getD m poly0).A.nr).sum + X_N.A.nr) ∧
      (∀ x0 v : ℕ → ℝ, d.Feas (S.nu * modes.length) S.nx v x0 ↔
        (∀ t < modes.length, IneqHold (S.domains.getD (modes.getD t 0) poly0).A (S.domains.getD (modes.getD t 0) poly0).b
          (pair S.nx (pwaTraj S modes x0 (unflat S.nu v) t) (unflat S.nu v t))) ∧
        IneqHold X_N.A X_N.b (pwaTraj S modes x0 (unflat S.nu v) modes.length)) ∧
      (SymMat S.nx Q → SymMat S.nx P → ∀ x0 v : ℕ → ℝ, d.cost (S.nu * modes.length) S.nx v x0
        = lqCost Q R P (pwaTraj S modes x0 (unflat S.nu v)) (unflat S.nu v) modes.length) ∧
      (∃ Bb : Mat ℝ, ∀ v w : ℕ → ℝ, bil d.Huu v w = (∑ t ∈ range modes.length, bil R (unflat S.nu v t) (unflat S.nu w t)) +
        ((∑ t ∈ range modes.length, bil Q (fun i => rowVal Bb (S.nx * t + i) v) (fun i => rowVal Bb (S.nx * t + i) w))
          + bil P (fun i => rowVal Bb (S.nx * modes.length + i) v) (fun i => rowVal Bb (S.nx * modes.length + i) w))) := by
  obtain ⟨A, B, c, k1, kA1, kA2, kB1, kB2, kc, k2⟩ := condense_run h
  set N := modes.length with hN
  have hNpos : 0 < N := List.length_pos_iff.2 h.ne
  -- the blocks of the cost
  set Qb := Mat.bdiag (List.replicate N Q ++ [P]) with hQb
  set Rb := Mat.bdiag (List.replicate N R) with hRb
  obtain ⟨q1, q2⟩ := bdiag_rep_shape h.Q.1 h.Q.2 h.P.1 h.P.2 N
  obtain ⟨r1, r2, r3⟩ := bdiag_rep' h.R.1 h.R.2 N
  have b1 : np.block_diag (List.replicate N Q ++ [P]) = Qb := if_neg (by simp)
  have b2 : np.block_diag (List.replicate N R) = Rb := if_neg (by
    intro hh
    have := congrArg List.length hh
    simp at this
    omega)
  have c1 : np.dotMM B.T Qb = .ok _ := if_pos (by show B.nr = Qb.nr; rw [kB1, q1])
  have c2 : np.dotMM (B.T.mul Qb) B = .ok _ := if_pos (by show Qb.nc = B.nr; rw [kB1, q2])
  have c3 : np.addM Rb ((B.T.mul Qb).mul B) = .ok _ := if_pos ⟨by show Rb.nr = B.nc; rw [kB2, r1], by show Rb.nc = B.nc; rw [kB2, r2]⟩
  have c4 : np.dotMM (B.T.mul Qb) A = .ok _ := if_pos (by show Qb.nc = A.nr; rw [kA1, q2])
  have c5 : np.dotMM A.T Qb = .ok _ := if_pos (by show A.nr = Qb.nr; rw [kA1, q1])
  have c6 : np.dotMM (A.T.mul Qb) A = .ok _ := if_pos (by show Qb.nc = A.nr; rw [kA1, q2])
  have c7 : np.dotMV (B.T.mul Qb) c = .ok _ := if_pos (by show Qb.nc = c.n; rw [kc, q2])
  have c8 : np.dotMV (A.T.mul Qb) c = .ok _ := if_pos (by show Qb.nc = c.n; rw [kc, q2])
  have c9 : np.dotVM c Qb = .ok _ := if_pos (by rw [kc, q1])
  have c10 : np.dotVV (Mat.vecMul c Qb) c = .ok _ := if_pos (by show Qb.nc = c.n; rw [kc, q2])
  have hcost : condenseCost Q R P N A B c = .ok (Rb.add ((B.T.mul Qb).mul B), (B.T.mul Qb).mul A, (A.T.mul Qb).mul A,
      (B.T.mul Qb).mulVec c, (A.T.mul Qb).mulVec c, 1 / 2 * (Mat.vecMul c Qb).dot c) := by
    unfold condenseCost
    simp only [b1, b2]
    rw [c1, Py.ok_bind, c2, Py.ok_bind, c3, Py.ok_bind, c4, Py.ok_bind, c5, Py.ok_bind, c6, Py.ok_bind, c7, Py.ok_bind,
      c8, Py.ok_bind, c9, Py.ok_bind, c10]
    rfl
  -- the constraints
  set Ds := modes.map fun m => S.domains.getD m poly0 with hDs
  have hDl : Ds.length = N := by simp [hDs, hN]
  have hDmem : ∀ D ∈ Ds, D ∈ S.domains := by
    intro D hD
    obtain ⟨m, hm, rfl⟩ := List.mem_map.1 hD
    exact getD_mem _ (by rw [← h.len]; exact h.modes m hm)
  have hmap : modes.mapM (np.listGet S.domains) = .ok Ds :=
    mapM_ok fun m hm => listGet_ok poly0 (by rw [← h.len]; exact h.modes m hm)
  have hDk : ∀ k < N, Ds.getD k poly0 ∈ S.domains := fun k hk => hDmem _ (getD_mem _ (by rw [hDl]; exact hk))
  set Fs := Ds.map fun D => D.A.colsTo S.nx with hFs
  set Gs := Ds.map fun D => D.A.colsFrom S.nx with hGs
  set hs := Ds.map (·.b) with hhs
  have gF : ∀ k < N, Fs.getD k mat0 = (Ds.getD k poly0).A.colsTo S.nx := fun k hk =>
    getD_map' (by rw [hDl]; exact hk) (fun D : Poly => D.A.colsTo S.nx) poly0 mat0
  have gG : ∀ k < N, Gs.getD k mat0 = (Ds.getD k poly0).A.colsFrom S.nx := fun k hk =>
    getD_map' (by rw [hDl]; exact hk) (fun D : Poly => D.A.colsFrom S.nx) poly0 mat0
  have gh : ∀ k < N, hs.getD k vec0 = (Ds.getD k poly0).b := fun k hk =>
    getD_map' (by rw [hDl]; exact hk) (fun D : Poly => D.b) poly0 vec0
  have lF : Fs.length = N := by simp [hFs, hDl]
  have lG : Gs.length = N := by simp [hGs, hDl]
  have lh : hs.length = N := by simp [hhs, hDl]
  obtain ⟨s1, s2, s3, s4, s5⟩ := stack_iff (nx := S.nx) (nu := S.nu) X_N.A X_N.b h.XN.1 h.XN.2 Fs Gs hs (by rw [lF, lG]) (by rw [lF, lh])
    (by
      intro k hk
      rw [lF] at hk
      rw [gF k hk, gG k hk, gh k hk]
      obtain ⟨d1, d2⟩ := h.dom _ (hDk k hk)
      refine ⟨by unfold Mat.colsTo; simp only [d1]; omega, by unfold Mat.colsFrom; simp only [d1]; omega, rfl, d2⟩)
  rw [lF] at s2 s3 s5
  set Fb := Mat.bdiag (Fs ++ [X_N.A]) with hFb
  set Gb := Mat.bdiag Gs with hGb
  set hb := Vec.concat (hs ++ [X_N.b]) with hhb
  have b3 : np.block_diag (Fs ++ [X_N.A]) = Fb := if_neg (by simp)
  have b4 : np.block_diag Gs = Gb := if_neg (by
    intro hh
    have := congrArg List.length hh
    simp [lG] at this
    omega)
  set Gv := Gb.vapp (Mat.zeros X_N.A.nr Gb.nc) with hGv
  have e1 : np.vstack [Gb, Mat.zeros X_N.A.nr Gb.nc] = .ok Gv := if_pos rfl
  have e2 : np.concatenate (hs ++ [X_N.b]) = .ok hb := if_neg (by simp)
  have e3 : np.dotMM Fb B = .ok _ := if_pos (by rw [s2, kB1])
  have e4 : np.addM Gv (Fb.mul B) = .ok _ := if_pos ⟨by show Gb.nr + X_N.A.nr = Fb.nr; rw [s1], by show Gb.nc = B.nc; rw [s3, kB2]⟩
  have e5 : np.dotMM Fb A = .ok _ := if_pos (by rw [s2, kA1])
  have e6 : np.dotMV Fb c = .ok _ := if_pos (by rw [s2, kc])
  have e7 : np.subV hb (Fb.mulVec c) = .ok _ := if_pos (by show hb.n = Fb.nr; rw [s4])
  have hconstr : condenseConstr S.nx Ds X_N A B c = .ok (Gv.add (Fb.mul B), Fb.mul A, hb.sub (Fb.mulVec c)) := by
    unfold condenseConstr
    simp only [← hFs, ← hGs, b3, b4]
    rw [e1, Py.ok_bind, e2, Py.ok_bind, e3, Py.ok_bind, e4, Py.ok_bind, e5, Py.ok_bind, e6, Py.ok_bind, e7]
    rfl
  have hGvr : Gv.nr = Fb.nr := by show Gb.nr + X_N.A.nr = Fb.nr; rw [s1]
  have hGvc : Gv.nc = S.nu * N := s3
  refine ⟨⟨Rb.add ((B.T.mul Qb).mul B), (B.T.mul Qb).mul A, (A.T.mul Qb).mul A, (B.T.mul Qb).mulVec c, (A.T.mul Qb).mulVec c,
    1 / 2 * (Mat.vecMul c Qb).dot c, Gv.add (Fb.mul B), Fb.mul A, hb.sub (Fb.mulVec c)⟩, ?_,
    ⟨r1, r2, kB2, kA2, kA2, kA2, kB2, kA2, hGvc, kA2, ?_, ?_, ?_⟩, ?_, ?_, B, ?_⟩
  · unfold condense_optimal_control_problem
    rw [k1, Py.ok_bind]
    simp only
    rw [← hN, hcost, Py.ok_bind, hmap, Py.ok_bind]
    simp only
    rw [hconstr, Py.ok_bind]
  · exact hGvr.symm
  · show hb.n = Gv.nr
    rw [s4, hGvr]
  · show Gb.nr + X_N.A.nr = _
    rw [hGb, bdiag_rows, hGs, hDs, List.map_map, List.map_map]
    rfl
  · intro x0 v
    set y : ℕ → ℝ := fun i => rowVal A i x0 + rowVal B i v + c.e i with hy
    have hrow : ∀ i, (Gv.add (Fb.mul B)).nr = Fb.nr ∧
        ParamQP.lhs (S.nu * N) S.nx ⟨Rb.add ((B.T.mul Qb).mul B), (B.T.mul Qb).mul A, (A.T.mul Qb).mul A, (B.T.mul Qb).mulVec c, (A.T.mul Qb).mulVec c,
          1 / 2 * (Mat.vecMul c Qb).dot c, Gv.add (Fb.mul B), Fb.mul A, hb.sub (Fb.mulVec c)⟩ i v x0
        = rowVal Gv i v + rowVal Fb i y - (Fb.mulVec c).e i := by
      intro i
      refine ⟨hGvr, ?_⟩
      unfold ParamQP.lhs
      have t1 : ∑ j ∈ range (S.nu * N), (Gv.add (Fb.mul B)).e i j * v j = rowVal Gv i v + rowVal (Fb.mul B) i v := by
        unfold rowVal
        rw [hGvc, show (Fb.mul B).nc = S.nu * N from kB2, ← Finset.sum_add_distrib]
        exact Finset.sum_congr rfl fun j _ => by simp only [Mat.add_e, add_mul]
      have t2 : ∑ j ∈ range S.nx, (Fb.mul A).e i j * x0 j = rowVal (Fb.mul A) i x0 := by
        unfold rowVal
        rw [show (Fb.mul A).nc = S.nx from kA2]
      have t3 : rowVal Fb i y = rowVal Fb i (fun k => rowVal A k x0) + rowVal Fb i (fun k => rowVal B k v) + rowVal Fb i c.e := by
        rw [hy, rowVal_add', rowVal_add']
      have t4 : (Fb.mulVec c).e i = rowVal Fb i c.e := by rw [Mat.mulVec_e]; rfl
      simp only
      rw [t1, t2, t3, t4, rowVal_mul (by rw [s2, kB1]), rowVal_mul (by rw [s2, kA1])]
      ring
    unfold ParamQP.Feas
    have step : (∀ i < (Gv.add (Fb.mul B)).nr, ParamQP.lhs (S.nu * N) S.nx ⟨Rb.add ((B.T.mul Qb).mul B), (B.T.mul Qb).mul A, (A.T.mul Qb).mul A, (B.T.mul Qb).mulVec c, (A.T.mul Qb).mulVec c,
          1 / 2 * (Mat.vecMul c Qb).dot c, Gv.add (Fb.mul B), Fb.mul A, hb.sub (Fb.mulVec c)⟩ i v x0 ≤ (hb.sub (Fb.mulVec c)).e i) ↔
        ∀ i < Fb.nr, rowVal Fb i y + rowVal Gv i v ≤ hb.e i := by
      rw [(hrow 0).1]
      refine forall_congr' fun i => forall_congr' fun _ => ?_
      rw [(hrow i).2]
      show _ ≤ hb.e i - (Fb.mulVec c).e i ↔ _
      constructor <;> intro hh <;> linarith
    refine step.trans ((s5 y v _).trans (and_congr ?_ ?_))
    · refine forall_congr' fun t => forall_congr' fun ht => ?_
      have ht' : t < modes.length := ht
      have eD : Ds.getD t poly0 = S.domains.getD (modes.getD t 0) poly0 :=
        getD_map' ht' (fun m => S.domains.getD m poly0) 0 poly0
      rw [gF t ht, gG t ht, gh t ht, eD]
      have hmem := hDk t ht
      rw [eD] at hmem
      set D := S.domains.getD (modes.getD t 0) poly0
      unfold IneqHold
      show (∀ i < D.A.nr, _) ↔ _
      refine forall_congr' fun i => forall_congr' fun _ => ?_
      rw [← rowVal_cols (h.dom D hmem).1]
      have : rowVal (D.A.colsTo S.nx) i (fun j => y (S.nx * t + j))
          = rowVal (D.A.colsTo S.nx) i (pwaTraj S modes x0 (unflat S.nu v) t) :=
        rowVal_congr' i fun j hj => k2 x0 v t ht.le j (by simpa [Mat.colsTo, (h.dom D hmem).1] using hj)
      rw [this]
      rfl
    · unfold IneqHold
      refine forall_congr' fun i => forall_congr' fun _ => ?_
      rw [rowVal_congr' i fun j hj => k2 x0 v N le_rfl j (by rw [← h.XN.1]; exact hj)]
  · intro hQ hP x0 v
    set y : ℕ → ℝ := fun i => rowVal A i x0 + rowVal B i v + c.e i with hy
    have hsum : ∀ (M : Mat ℝ) (m n : ℕ) (x z : ℕ → ℝ), M.nr = m → M.nc = n →
        ∑ i ∈ range m, ∑ j ∈ range n, x i * M.e i j * z j = bil M x z := by
      intro M m n x z h1 h2
      subst h1 h2
      unfold bil rowVal
      refine Finset.sum_congr rfl fun i _ => ?_
      rw [Finset.mul_sum]
      exact Finset.sum_congr rfl fun j _ => by ring
    have u1 : bil (Rb.add ((B.T.mul Qb).mul B)) v v = bil Rb v v + bil Qb (fun i => rowVal B i v) (fun i => rowVal B i v) := by
      rw [← bil_sandwich (by rw [kB1, q1]) (by rw [kB1, q2]), ← hsum (Rb.add ((B.T.mul Qb).mul B)) (S.nu * N) (S.nu * N) _ _ r1 r2, ← hsum Rb (S.nu * N) (S.nu * N) _ _ r1 r2,
        ← hsum ((B.T.mul Qb).mul B) (S.nu * N) (S.nu * N) _ _ kB2 kB2, ← Finset.sum_add_distrib]
      refine Finset.sum_congr rfl fun i _ => ?_
      rw [← Finset.sum_add_distrib]
      exact Finset.sum_congr rfl fun j _ => by simp only [Mat.add_e]; ring
    have u2 : ∑ i ∈ range S.nx, ∑ j ∈ range (S.nu * N), x0 i * ((B.T.mul Qb).mul A).e j i * v j
        = bil Qb (fun i => rowVal B i v) (fun i => rowVal A i x0) := by
      rw [← bil_sandwich (by rw [kB1, q1]) (by rw [kA1, q2]), ← hsum ((B.T.mul Qb).mul A) (S.nu * N) S.nx _ _ kB2 kA2, Finset.sum_comm]
      exact Finset.sum_congr rfl fun j _ => Finset.sum_congr rfl fun i _ => by ring
    have u3 : (Mat.vecMul c Qb).dot c = bil Qb c.e c.e := by
      rw [← hsum Qb (S.nx * (N + 1)) (S.nx * (N + 1)) _ _ q1 q2, Finset.sum_comm]
      unfold Vec.dot
      rw [show (Mat.vecMul c Qb).n = S.nx * (N + 1) from q2]
      refine Finset.sum_congr rfl fun j _ => ?_
      rw [Mat.vecMul_e, kc, Finset.sum_mul]
    have hcost2 : ParamQP.cost (S.nu * N) S.nx ⟨Rb.add ((B.T.mul Qb).mul B), (B.T.mul Qb).mul A, (A.T.mul Qb).mul A, (B.T.mul Qb).mulVec c, (A.T.mul Qb).mulVec c,
          1 / 2 * (Mat.vecMul c Qb).dot c, Gv.add (Fb.mul B), Fb.mul A, hb.sub (Fb.mulVec c)⟩ v x0
        = 1 / 2 * bil Rb v v + 1 / 2 * bil Qb y y := by
      unfold ParamQP.cost
      simp only
      rw [hsum (Rb.add ((B.T.mul Qb).mul B)) _ _ _ _ r1 r2, u1, hsum ((B.T.mul Qb).mul A) _ _ _ _ kB2 kA2, u2, hsum ((A.T.mul Qb).mul A) _ _ _ _ kA2 kA2, u3]
      rw [show ∑ j ∈ range (S.nu * N), ((B.T.mul Qb).mulVec c).e j * v j = ∑ j ∈ range B.nc, ((B.T.mul Qb).mulVec c).e j * v j by rw [kB2],
        show ∑ j ∈ range S.nx, ((A.T.mul Qb).mulVec c).e j * x0 j = ∑ j ∈ range A.nc, ((A.T.mul Qb).mulVec c).e j * x0 j by rw [kA2],
        dot_sandwich (by rw [kB1, q1]) (by rw [kc, q2]), dot_sandwich (by rw [kA1, q1]) (by rw [kc, q2]),
        bil_sandwich (by rw [kB1, q1]) (by rw [kA1, q2]), bil_sandwich (by rw [kA1, q1]) (by rw [kA1, q2])]
      rw [hy, bil_add_left, bil_add_left, bil_add_right, bil_add_right, bil_add_right, bil_add_right, bil_add_right, bil_add_right]
      have m1 := bil_rep_symm hQ hP N (fun i => rowVal A i x0) (fun i => rowVal B i v)
      have m2 := bil_rep_symm hQ hP N (fun i => rowVal A i x0) c.e
      have m3 := bil_rep_symm hQ hP N (fun i => rowVal B i v) c.e
      rw [← hQb] at m1 m2 m3
      linarith
    rw [hcost2, r3, hQb, bil_bdiag_rep h.Q.1 h.Q.2 h.P.1 h.P.2]
    unfold lqCost
    rw [Finset.sum_add_distrib]
    have w1 : ∀ t ∈ range N, bil Q (fun i => y (S.nx * t + i)) (fun i => y (S.nx * t + i)) = quad Q (pwaTraj S modes x0 (unflat S.nu v) t) := by
      intro t ht
      rw [quad_bil]
      exact bil_congr h.Q.1 h.Q.2 (fun i hi => k2 x0 v t (mem_range.1 ht).le i hi) (fun i hi => k2 x0 v t (mem_range.1 ht).le i hi)
    have w2 : bil P (fun i => y (S.nx * N + i)) (fun i => y (S.nx * N + i)) = quad P (pwaTraj S modes x0 (unflat S.nu v) N) := by
      rw [quad_bil]
      exact bil_congr h.P.1 h.P.2 (fun i hi => k2 x0 v N le_rfl i hi) (fun i hi => k2 x0 v N le_rfl i hi)
    rw [Finset.sum_congr rfl w1, w2, Finset.sum_congr rfl fun t _ => quad_bil R (unflat S.nu v t)]
    show 1 / 2 * ∑ t ∈ range N, bil R (unflat S.nu v t) (unflat S.nu v t) + _ = _
    ring
  · intro v w
    show bil (Rb.add ((B.T.mul Qb).mul B)) v w = _
    have : bil (Rb.add ((B.T.mul Qb).mul B)) v w = bil Rb v w + bil Qb (fun i => rowVal B i v) (fun i => rowVal B i w) := by
      rw [← bil_sandwich (by rw [kB1, q1]) (by rw [kB1, q2])]
      unfold bil
      rw [show (Rb.add ((B.T.mul Qb).mul B)).nr = Rb.nr from rfl, show ((B.T.mul Qb).mul B).nr = Rb.nr from (kB2.trans r1.symm), ← Finset.sum_add_distrib]
      refine Finset.sum_congr rfl fun i _ => ?_
      rw [← mul_add]
      congr 1
      unfold rowVal
      rw [show (Rb.add ((B.T.mul Qb).mul B)).nc = Rb.nc from rfl, show ((B.T.mul Qb).mul B).nc = Rb.nc from (kB2.trans r2.symm), ← Finset.sum_add_distrib]
      exact Finset.sum_congr rfl fun j _ => by simp only [Mat.add_e]; ring
    rw [this, r3, hQb, bil_bdiag_rep h.Q.1 h.Q.2 h.P.1 h.P.2]
    rfl

end Control
end Verif
