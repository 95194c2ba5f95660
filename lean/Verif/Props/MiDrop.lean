import Verif.Props.MiSolve
import Verif.Proofs.GurobiDrop

/- What `solve` of a multiparametric mixed-integer program answers when there are tiny entries: C102 of properties.jsonl. -/
namespace Verif.Props
open Finset Spec Control

/-- the program that Gurobi sees at the parameter `x`, as a program in a parameter that is always `1` -/
noncomputable def seen (q : MpMIQP) (x : ℕ → ℝ) : MpMIQP :=
  ⟨dropM 1e-9 q.Huu, dropM 1e-9 q.Hzz, ⟨1, 1, fun _ _ => quad q.Hxx x⟩, ⟨q.Hzx.nr, 1, fun i _ => drop 1e-9 (rowVal q.Hzx i x)⟩, dropM 1e-9 q.Au, dropM 1e-9 q.Az,
    dropM 1e-9 q.Ad, Mat.zeros q.b.n 1, ⟨q.b.n, fun i => drop 1e-9 (q.b.e i - rowVal q.Ax i x)⟩⟩

theorem seen_shape {nu nz nd nx : ℕ} {q : MpMIQP} (hq : MiShape nu nz nd nx q) (x : ℕ → ℝ) : MiShape nu nz nd 1 (seen q x) :=
  ⟨hq.Huu, hq.Hzz, ⟨hq.Hzx.1, rfl⟩, ⟨rfl, rfl⟩, hq.Au, hq.Az, hq.Ad, ⟨rfl, rfl⟩⟩

theorem seen_noTiny (q : MpMIQP) (x : ℕ → ℝ) : MiNoTiny (seen q x) (fun _ => 1) where
  Huu i _ j _ := drop_noTiny _
  Hzz i _ j _ := drop_noTiny _
  Au i _ j _ := drop_noTiny _
  Az i _ j _ := drop_noTiny _
  Ad i _ j _ := drop_noTiny _
  f i _ := by
    have : rowVal (seen q x).Hzx i (fun _ => 1) = drop 1e-9 (rowVal q.Hzx i x) := by
      simp [rowVal, seen]
    rw [this]
    exact drop_noTiny _
  b i _ := by
    have : (seen q x).b.e i - rowVal (seen q x).Ax i (fun _ => 1) = drop 1e-9 (q.b.e i - rowVal q.Ax i x) := by
      simp [rowVal, seen, Mat.zeros]
    rw [this]
    exact drop_noTiny _

theorem dropM_happ (A B : Mat ℝ) : dropM 1e-9 (A.happ B) = (dropM 1e-9 A).happ (dropM 1e-9 B) := by
  simp only [dropM, Mat.happ, Mat.mk.injEq, true_and]
  funext i j
  by_cases h : j < A.nc <;> simp [h]

theorem dropM_bdiag2 (A B : Mat ℝ) : dropM 1e-9 (A.bdiag2 B) = (dropM 1e-9 A).bdiag2 (dropM 1e-9 B) := by
  simp only [dropM, Mat.bdiag2, Mat.mk.injEq, true_and]
  funext i j
  by_cases h : i < A.nr <;> by_cases h' : j < A.nc <;> simp [h, h', drop_zero]

theorem dropM_zeros (n m : ℕ) : dropM 1e-9 (Mat.zeros n m) = Mat.zeros n m := by
  simp only [dropM, Mat.zeros, drop_zero]

theorem dropV_append (v w : Vec ℝ) : dropV 1e-9 (v.append w) = (dropV 1e-9 v).append (dropV 1e-9 w) := by
  simp only [dropV, Vec.append, Vec.mk.injEq, true_and]
  funext i
  by_cases h : i < v.n <;> simp [h]

theorem dropV_zeros (n : ℕ) : dropV 1e-9 (Vec.zeros n) = Vec.zeros n := by
  simp only [dropV, Vec.zeros, drop_zero]

/-- the arrays of the standard form -/
theorem standardForm_eq {nu nz nd nx : ℕ} {q : MpMIQP} (hq : MiShape nu nz nd nx q) {x : Vec ℝ} (hx : x.n = nx) :
    q.standardForm x = .ok (nu + nz, np.block_diag [q.Huu, q.Hzz, Mat.zeros nd nd], (Vec.zeros nu).append ((q.Hzx.mulVec x).append (Vec.zeros nd)),
      q.Au.happ (q.Az.happ q.Ad), q.b.sub (q.Ax.mulVec x)) := by
  obtain ⟨⟨u1, u2⟩, ⟨z1, z2⟩, ⟨zx1, zx2⟩, ⟨xx1, xx2⟩, ⟨au1, au2⟩, ⟨az1, az2⟩, ⟨ad1, ad2⟩, ⟨ax1, ax2⟩⟩ := hq
  have k1 : np.dotMV q.Hzx x = .ok (q.Hzx.mulVec x) := if_pos (by rw [zx2, hx])
  have k2 : np.hstack [q.Au, q.Az, q.Ad] = .ok (q.Au.happ (q.Az.happ q.Ad)) := by
    show (np.hstack [q.Az, q.Ad] >>= fun C => np.hstack2 q.Au C) = _
    have e : np.hstack [q.Az, q.Ad] = .ok (q.Az.happ q.Ad) := by
      show (np.hstack [q.Ad] >>= fun C => np.hstack2 q.Az C) = _
      exact if_pos (by rw [az1, ad1])
    rw [e, Py.ok_bind]
    exact if_pos (by show q.Au.nr = q.Az.nr; rw [az1, au1])
  have k3 : np.dotMV q.Ax x = .ok (q.Ax.mulVec x) := if_pos (by rw [ax2, hx])
  have k4 : np.subV q.b (q.Ax.mulVec x) = .ok (q.b.sub (q.Ax.mulVec x)) := if_pos (by show q.b.n = q.Ax.nr; rw [ax1])
  unfold MpMIQP.standardForm
  rw [k1, Py.ok_bind]
  have kc : np.concatenate [Vec.zeros q.Au.nc, q.Hzx.mulVec x, Vec.zeros q.Ad.nc] = .ok ((Vec.zeros q.Au.nc).append ((q.Hzx.mulVec x).append (Vec.zeros q.Ad.nc))) := rfl
  rw [kc, Py.ok_bind, k2, Py.ok_bind, k3, Py.ok_bind, k4, Py.ok_bind, au2, az2, ad2]
  rfl

/-- `solve` solves the program that Gurobi sees -/
theorem solve_seen (G : Gurobi) {nu nz nd nx : ℕ} {q : MpMIQP} (hq : MiShape nu nz nd nx q) {x : Vec ℝ} (hx : x.n = nx) :
    q.solve G x = (seen q x.e).solve G ⟨1, fun _ => 1⟩ := by
  have hs := seen_shape hq x.e
  have e1 : np.block_diag [(seen q x.e).Huu, (seen q x.e).Hzz, Mat.zeros nd nd] = dropM 1e-9 (np.block_diag [q.Huu, q.Hzz, Mat.zeros nd nd]) := by
    show (dropM 1e-9 q.Huu).bdiag2 ((dropM 1e-9 q.Hzz).bdiag2 ((Mat.zeros nd nd).bdiag2 (Mat.zeros 0 0)))
      = dropM 1e-9 (q.Huu.bdiag2 (q.Hzz.bdiag2 ((Mat.zeros nd nd).bdiag2 (Mat.zeros 0 0))))
    rw [dropM_bdiag2, dropM_bdiag2, dropM_bdiag2, dropM_zeros, dropM_zeros]
  have e2 : (Vec.zeros nu).append (((seen q x.e).Hzx.mulVec ⟨1, fun _ => 1⟩).append (Vec.zeros nd))
      = dropV 1e-9 ((Vec.zeros nu).append ((q.Hzx.mulVec x).append (Vec.zeros nd))) := by
    rw [dropV_append, dropV_append, dropV_zeros, dropV_zeros]
    congr 2
    simp only [Mat.mulVec, dropV, seen, Vec.mk.injEq, true_and]
    funext i
    rw [Finset.sum_range_one, mul_one]
    rfl
  have e3 : (seen q x.e).Au.happ ((seen q x.e).Az.happ (seen q x.e).Ad) = dropM 1e-9 (q.Au.happ (q.Az.happ q.Ad)) := by
    rw [dropM_happ, dropM_happ]
    rfl
  have e4 : (seen q x.e).b.sub ((seen q x.e).Ax.mulVec ⟨1, fun _ => 1⟩) = dropV 1e-9 (q.b.sub (q.Ax.mulVec x)) := by
    simp only [Mat.mulVec, Vec.sub, dropV, seen, Mat.zeros, Vec.mk.injEq, true_and]
    funext i
    simp only [Finset.sum_range_one, mul_one, sub_zero]
    rfl
  have hr : ∀ s, q.reshape x s = (seen q x.e).reshape ⟨1, fun _ => 1⟩ s := by
    intro s
    have k1 : np.dotVM x q.Hxx = .ok (Mat.vecMul x q.Hxx) := if_pos (by rw [hx, hq.Hxx.1])
    have k2 : np.dotVV (Mat.vecMul x q.Hxx) x = .ok ((Mat.vecMul x q.Hxx).dot x) := if_pos (by show q.Hxx.nc = _; rw [hx, hq.Hxx.2])
    have k3 : np.dotVM (⟨1, fun _ => 1⟩ : Vec ℝ) (seen q x.e).Hxx = .ok (Mat.vecMul ⟨1, fun _ => 1⟩ (seen q x.e).Hxx) := if_pos rfl
    have k4 : np.dotVV (Mat.vecMul ⟨1, fun _ => 1⟩ (seen q x.e).Hxx) ⟨1, fun _ => 1⟩ = .ok ((Mat.vecMul ⟨1, fun _ => 1⟩ (seen q x.e).Hxx).dot ⟨1, fun _ => 1⟩) :=
      if_pos rfl
    have k5 : quad (seen q x.e).Hxx (fun _ => 1) = quad q.Hxx x.e := by simp [quad, seen]
    unfold MpMIQP.reshape
    simp only [k1, k2, k3, k4, Py.ok_bind, vecMul_dot hq hx, vecMul_dot hs (x := ⟨1, fun _ => 1⟩) rfl, k5]
    rfl
  unfold MpMIQP.solve
  rw [standardForm_eq hq hx, standardForm_eq hs rfl, e1, e2, e3, e4, Py.ok_bind, Py.ok_bind]
  simp only [Grb.mixed_integer_quadratic_program, Grb.build_model_drop, hr]

/-- C102: whatever the data and the parameter, `solve(x)` never raises and solves the program in which the entries of magnitude at most `1e-9` of the
arrays, of `Hzx x` and of `b - Ax x` are zero: it answers exactly when that program has a minimum, with a minimizer of it and its minimum plus `1/2 x Hxx x`.
If the coefficients are not tiny, the constraints of the original program hold up to `1e-9`. -/
theorem C102 (G : Gurobi) (hG : GurobiSpec G) (nu nz nd nx : ℕ) (q : MpMIQP) (hq : MiShape nu nz nd nx q) (x : Vec ℝ) (hx : x.n = nx) :
    let g : Mat ℝ := ⟨nz, 1, fun i _ => drop 1e-9 (rowVal q.Hzx i x.e)⟩
    let k : Mat ℝ := ⟨1, 1, fun _ _ => quad q.Hxx x.e⟩
    let r : Vec ℝ := ⟨q.b.n, fun i => drop 1e-9 (q.b.e i - rowVal q.Ax i x.e)⟩
    let Opt := MiOpt (dropM 1e-9 q.Huu) (dropM 1e-9 q.Hzz) g k (dropM 1e-9 q.Au) (dropM 1e-9 q.Az) (dropM 1e-9 q.Ad) (Mat.zeros q.b.n 1) r nd (fun _ => 1)
    ∃ s, q.solve G x = .ok s ∧ (s.min = none ↔ ¬ ∃ u z d, Opt u z d) ∧ (s.min = none → s.u = none ∧ s.z = none ∧ s.d = none) ∧
      ∀ V, s.min = some V → ∃ u z d, s.u = some u ∧ s.z = some z ∧ s.d = some d ∧ u.n = nu ∧ z.n = nz ∧ d.n = nd ∧ Opt u.e z.e d.e ∧
        V = miCost (dropM 1e-9 q.Huu) (dropM 1e-9 q.Hzz) g k u.e z.e (fun _ => 1) ∧
        (NoTinyM 1e-9 q.Au → NoTinyM 1e-9 q.Az → NoTinyM 1e-9 q.Ad →
          ∀ i < q.b.n, rowVal q.Au i u.e + rowVal q.Az i z.e + rowVal q.Ad i d.e + rowVal q.Ax i x.e ≤ q.b.e i + 1e-9) := by
  intro g k r Opt
  obtain ⟨s, s1, s2, s3, s4⟩ := C85_partial G hG nu nz nd 1 (seen q x.e) (seen_shape hq x.e) ⟨1, fun _ => 1⟩ rfl (seen_noTiny q x.e)
  rw [← solve_seen G hq hx] at s1
  have hg : (seen q x.e).Hzx = g := by
    show (⟨q.Hzx.nr, 1, _⟩ : Mat ℝ) = ⟨nz, 1, _⟩
    rw [hq.Hzx.1]
  rw [hg] at s2 s4
  refine ⟨s, s1, s2, s3, fun V hV => ?_⟩
  obtain ⟨u, z, d, e1, e2, e3, n1, n2, n3, ho, hv⟩ := s4 V hV
  refine ⟨u, z, d, e1, e2, e3, n1, n2, n3, ho, hv, fun tu tz td i hi => ?_⟩
  have h1 := ho.1.2 i hi
  have hd : ∀ {A : Mat ℝ}, NoTinyM 1e-9 A → A.nr = q.b.n → ∀ y, rowVal (dropM 1e-9 A) i y = rowVal A i y := fun {A} hA hn y => by
    refine Finset.sum_congr rfl fun j hj => ?_
    have : drop 1e-9 (A.e i j) = A.e i j := by
      rcases hA i (hn ▸ hi) j (mem_range.1 hj) with h | h
      · rw [h, drop_zero]
      · exact drop_of_gt h
    show drop 1e-9 (A.e i j) * _ = _
    rw [this]
  have h2 : rowVal (dropM 1e-9 q.Au) i u.e + rowVal (dropM 1e-9 q.Az) i z.e + rowVal (dropM 1e-9 q.Ad) i d.e + rowVal (Mat.zeros q.b.n 1) i (fun _ => (1 : ℝ))
      ≤ drop 1e-9 (q.b.e i - rowVal q.Ax i x.e) := h1
  rw [hd tu hq.Au.1, hd tz hq.Az.1, hd td hq.Ad.1, rowVal_zeros] at h2
  have h3 := (abs_le.1 (drop_close (ε := 1e-9) (by norm_num) (q.b.e i - rowVal q.Ax i x.e))).2
  linarith

end Verif.Props
