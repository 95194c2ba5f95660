import Verif.Props.Programs
import Verif.Proofs.Entries

/- The solution of multiparametric mixed-integer quadratic programs (C85). -/
namespace Verif.Props
open Finset Spec Control

/-- the data of the program at the parameter `x` has no nonzero entry of magnitude at most `1e-9` -/
structure MiNoTiny (q : MpMIQP) (x : ℕ → ℝ) : Prop where
  Huu : NoTinyM 1e-9 q.Huu
  Hzz : NoTinyM 1e-9 q.Hzz
  Au : NoTinyM 1e-9 q.Au
  Az : NoTinyM 1e-9 q.Az
  Ad : NoTinyM 1e-9 q.Ad
  f : ∀ i < q.Hzx.nr, rowVal q.Hzx i x = 0 ∨ 1e-9 < |rowVal q.Hzx i x|
  b : ∀ i < q.b.n, q.b.e i - rowVal q.Ax i x = 0 ∨ 1e-9 < |q.b.e i - rowVal q.Ax i x|

theorem rowVal_happ (A B : Mat ℝ) (i : ℕ) (y : ℕ → ℝ) : rowVal (A.happ B) i y = rowVal A i y + rowVal B i (fun j => y (A.nc + j)) := by
  unfold rowVal
  rw [show (A.happ B).nc = A.nc + B.nc from rfl, Finset.sum_range_add]
  congr 1
  · exact Finset.sum_congr rfl fun j hj => by rw [Mat.happ_e_lt _ _ _ (mem_range.1 hj)]
  · exact Finset.sum_congr rfl fun j hj => by rw [Mat.happ_e_add]

theorem noTiny_happ {A B : Mat ℝ} (hA : NoTinyM 1e-9 A) (hB : NoTinyM 1e-9 B) (h : B.nr = A.nr) : NoTinyM 1e-9 (A.happ B) := by
  intro i hi
  refine forall_lt_add.2 ⟨fun j hj => ?_, fun j hj => ?_⟩
  · rw [Mat.happ_e_lt _ _ _ hj]
    exact hA i hi j hj
  · rw [Mat.happ_e_add]
    exact hB i (h ▸ hi) j hj

theorem noTiny_bdiag2 {A B : Mat ℝ} (hA : NoTinyM 1e-9 A) (hB : NoTinyM 1e-9 B) : NoTinyM 1e-9 (A.bdiag2 B) := by
  intro i hi j hj
  show (if i < A.nr then (if j < A.nc then A.e i j else 0) else (if j < A.nc then 0 else B.e (i - A.nr) (j - A.nc))) = 0 ∨ _ < |(if i < A.nr then (if j < A.nc then A.e i j else 0) else (if j < A.nc then 0 else B.e (i - A.nr) (j - A.nc)))|
  have hi' : i < A.nr + B.nr := hi
  have hj' : j < A.nc + B.nc := hj
  split_ifs
  · exact hA i ‹_› j ‹_›
  · exact Or.inl rfl
  · exact Or.inl rfl
  · exact hB _ (by omega) _ (by omega)

theorem noTiny_append {v w : Vec ℝ} (hv : NoTinyV 1e-9 v) (hw : NoTinyV 1e-9 w) : NoTinyV 1e-9 (v.append w) := by
  refine forall_lt_add.2 ⟨fun j hj => ?_, fun j hj => ?_⟩
  · rw [Vec.append_e_lt _ _ hj]
    exact hv j hj
  · rw [Vec.append_e_add]
    exact hw j hj

theorem dot_append (v w : Vec ℝ) (y : ℕ → ℝ) : ∑ j ∈ range (v.append w).n, (v.append w).e j * y j
    = ∑ j ∈ range v.n, v.e j * y j + ∑ j ∈ range w.n, w.e j * y (v.n + j) := by
  rw [show (v.append w).n = v.n + w.n from rfl, Finset.sum_range_add]
  congr 1
  · exact Finset.sum_congr rfl fun j hj => by rw [Vec.append_e_lt _ _ (mem_range.1 hj)]
  · exact Finset.sum_congr rfl fun j hj => by rw [Vec.append_e_add]

/-- the standard form of the program -/
theorem standardForm_ok {nu nz nd nx : ℕ} {q : MpMIQP} (hq : MiShape nu nz nd nx q) {x : Vec ℝ} (hx : x.n = nx) :
    ∃ H f A b, q.standardForm x = .ok (nu + nz, H, f, A, b) ∧ H.nr = nu + (nz + nd) ∧ H.nc = nu + (nz + nd) ∧ f.n = nu + (nz + nd) ∧
      A.nc = nu + (nz + nd) ∧ b.n = A.nr ∧
      (∀ v : Vec ℝ, Spec.Ineqs A b v ↔ MiFeas q.Au q.Az q.Ad q.Ax q.b v.e (fun i => v.e (nu + i)) (fun i => v.e (nu + (nz + i))) x.e) ∧
      (∀ v : Vec ℝ, qpCost H f v + 1 / 2 * quad q.Hxx x.e = miCost q.Huu q.Hzz q.Hzx q.Hxx v.e (fun i => v.e (nu + i)) x.e) ∧
      (MiNoTiny q x.e → NoTinyM 1e-9 H ∧ NoTiny f A b none none) := by
  obtain ⟨⟨u1, u2⟩, ⟨z1, z2⟩, ⟨zx1, zx2⟩, ⟨xx1, xx2⟩, ⟨au1, au2⟩, ⟨az1, az2⟩, ⟨ad1, ad2⟩, ⟨ax1, ax2⟩⟩ := hq
  have k1 : np.dotMV q.Hzx x = .ok (q.Hzx.mulVec x) := if_pos (by rw [zx2, hx])
  have k2 : np.hstack [q.Au, q.Az, q.Ad] = .ok (q.Au.happ (q.Az.happ q.Ad)) := by
    show (np.hstack [q.Az, q.Ad] >>= fun C => np.hstack2 q.Au C) = _
    have e : np.hstack [q.Az, q.Ad] = .ok (q.Az.happ q.Ad) := by
      show (np.hstack [q.Ad] >>= fun C => np.hstack2 q.Az C) = _
      exact if_pos (by rw [az1, ad1])
    rw [e, Py.ok_bind]
    exact if_pos (by show q.Au.nr = q.Az.nr; rw [az1, au1])
  have k3 : np.dotMV q.Ax x = .ok (q.Ax.mulVec x) := if_pos (by rw [ax2, hx])
  have k4 : np.subV q.b (q.Ax.mulVec x) = .ok (q.b.sub (q.Ax.mulVec x)) := if_pos (by show q.b.n = q.Ax.nr; rw [ax1])
  refine ⟨np.block_diag [q.Huu, q.Hzz, Mat.zeros q.Ad.nc q.Ad.nc], (Vec.zeros q.Au.nc).append ((q.Hzx.mulVec x).append (Vec.zeros q.Ad.nc)),
    q.Au.happ (q.Az.happ q.Ad), q.b.sub (q.Ax.mulVec x), ?_, ?_, ?_, ?_, ?_, ?_, fun v => ?_, fun v => ?_, fun ht => ?_⟩
  · unfold MpMIQP.standardForm
    rw [k1, Py.ok_bind]
    have kc : np.concatenate [Vec.zeros q.Au.nc, q.Hzx.mulVec x, Vec.zeros q.Ad.nc] = .ok ((Vec.zeros q.Au.nc).append ((q.Hzx.mulVec x).append (Vec.zeros q.Ad.nc))) := rfl
    rw [kc, Py.ok_bind, k2, Py.ok_bind, k3, Py.ok_bind, k4, Py.ok_bind, au2, az2]
    rfl
  · show q.Huu.nr + (q.Hzz.nr + (q.Ad.nc + 0)) = _
    omega
  · show q.Huu.nc + (q.Hzz.nc + (q.Ad.nc + 0)) = _
    omega
  · show q.Au.nc + (q.Hzx.nr + q.Ad.nc) = _
    omega
  · show q.Au.nc + (q.Az.nc + q.Ad.nc) = _
    omega
  · exact au1.symm
  · have hrow : ∀ i, ∑ j ∈ range (q.Au.happ (q.Az.happ q.Ad)).nc, (q.Au.happ (q.Az.happ q.Ad)).e i j * v.e j
        = rowVal q.Au i v.e + (rowVal q.Az i (fun j => v.e (nu + j)) + rowVal q.Ad i (fun j => v.e (nu + (nz + j)))) := fun i => by
      show rowVal (q.Au.happ (q.Az.happ q.Ad)) i v.e = _
      rw [rowVal_happ q.Au, rowVal_happ q.Az, au2, az2]
    unfold Spec.Ineqs MiFeas
    rw [show (q.Au.happ (q.Az.happ q.Ad)).nr = q.b.n from au1]
    refine forall_congr' fun i => forall_congr' fun _ => ?_
    rw [hrow, show (q.b.sub (q.Ax.mulVec x)).e i = q.b.e i - rowVal q.Ax i x.e from rfl]
    constructor <;> intro h <;> linarith
  · have h1 : ∑ i ∈ range (np.block_diag [q.Huu, q.Hzz, Mat.zeros q.Ad.nc q.Ad.nc]).nr, ∑ j ∈ range (np.block_diag [q.Huu, q.Hzz, Mat.zeros q.Ad.nc q.Ad.nc]).nc,
        v.e i * (np.block_diag [q.Huu, q.Hzz, Mat.zeros q.Ad.nc q.Ad.nc]).e i j * v.e j = quad q.Huu v.e + quad q.Hzz (fun i => v.e (nu + i)) := by
      show quad (q.Huu.bdiag2 (q.Hzz.bdiag2 ((Mat.zeros q.Ad.nc q.Ad.nc).bdiag2 ⟨0, 0, fun _ _ => 0⟩))) v.e = _
      rw [quad_bil, bil_bdiag2 _ _ (by rw [u1, u2]), bil_bdiag2 _ _ (by rw [z1, z2]), bil_bdiag2 _ _ rfl, u1, ← quad_bil, ← quad_bil]
      have e0 : ∀ a b : ℕ → ℝ, bil (Mat.zeros q.Ad.nc q.Ad.nc) a b = 0 := fun a b => by
        unfold bil
        exact Finset.sum_eq_zero fun i _ => by rw [rowVal_zeros, mul_zero]
      rw [e0]
      simp [bil]
    have h2 : ∑ j ∈ range ((Vec.zeros q.Au.nc).append ((q.Hzx.mulVec x).append (Vec.zeros q.Ad.nc))).n,
        ((Vec.zeros q.Au.nc).append ((q.Hzx.mulVec x).append (Vec.zeros q.Ad.nc))).e j * v.e j
        = ∑ i ∈ range q.Hzx.nr, ∑ j ∈ range q.Hzx.nc, v.e (nu + i) * q.Hzx.e i j * x.e j := by
      rw [dot_append, dot_append]
      have e1 : ∑ j ∈ range (Vec.zeros q.Au.nc : Vec ℝ).n, (Vec.zeros q.Au.nc : Vec ℝ).e j * v.e j = 0 :=
        Finset.sum_eq_zero fun j _ => by simp [Vec.zeros]
      have e2 : ∑ j ∈ range (Vec.zeros q.Ad.nc : Vec ℝ).n, (Vec.zeros q.Ad.nc : Vec ℝ).e j * v.e ((Vec.zeros q.Au.nc : Vec ℝ).n + ((q.Hzx.mulVec x).n + j)) = 0 :=
        Finset.sum_eq_zero fun j _ => by simp [Vec.zeros]
      rw [e1, e2, zero_add, add_zero]
      refine Finset.sum_congr rfl fun i _ => ?_
      show (∑ j ∈ range q.Hzx.nc, q.Hzx.e i j * x.e j) * v.e (q.Au.nc + i) = _
      rw [Finset.sum_mul, au2]
      exact Finset.sum_congr rfl fun j _ => by ring
    unfold qpCost miCost
    rw [h1, h2]
    ring
  · obtain ⟨t1, t2, t3, t4, t5, t6, t7⟩ := ht
    have hz : ∀ n m : ℕ, NoTinyM 1e-9 (Mat.zeros n m) := fun n m i _ j _ => Or.inl rfl
    have hzv : ∀ n : ℕ, NoTinyV 1e-9 (Vec.zeros n) := fun n i _ => Or.inl rfl
    refine ⟨noTiny_bdiag2 t1 (noTiny_bdiag2 t2 (noTiny_bdiag2 (hz _ _) (hz 0 0))), ⟨noTiny_append (hzv _) (noTiny_append t6 (hzv _)),
      noTiny_happ t3 (noTiny_happ t4 t5 (by rw [ad1, az1])) (by show q.Az.nr = _; rw [az1, au1]), t7, fun _ h => (by cases h), fun _ h => (by cases h)⟩⟩

theorem mi_congr {nu nz nd nx : ℕ} {q : MpMIQP} (hq : MiShape nu nz nd nx q) {x u z d u' z' d' : ℕ → ℝ} (hu : ∀ i < nu, u i = u' i)
    (hz : ∀ i < nz, z i = z' i) (hd : ∀ i < nd, d i = d' i) :
    (MiFeas q.Au q.Az q.Ad q.Ax q.b u z d x ↔ MiFeas q.Au q.Az q.Ad q.Ax q.b u' z' d' x) ∧
    miCost q.Huu q.Hzz q.Hzx q.Hxx u z x = miCost q.Huu q.Hzz q.Hzx q.Hxx u' z' x := by
  constructor
  · refine forall_congr' fun i => forall_congr' fun _ => ?_
    rw [rowVal_congr' i fun j hj => hu j (hq.Au.2 ▸ hj), rowVal_congr' i fun j hj => hz j (hq.Az.2 ▸ hj), rowVal_congr' i fun j hj => hd j (hq.Ad.2 ▸ hj)]
  · unfold miCost
    rw [quad_congr hq.Huu.1 hq.Huu.2 hu, quad_congr hq.Hzz.1 hq.Hzz.2 hz]
    congr 2
    refine Finset.sum_congr rfl fun i hi => Finset.sum_congr rfl fun j _ => ?_
    rw [hz i (hq.Hzx.1 ▸ mem_range.1 hi)]

theorem joined (nu nz nd : ℕ) (u z d : ℕ → ℝ) : ∃ w : Vec ℝ, (∀ i < nu, u i = w.e i) ∧ (∀ i < nz, z i = w.e (nu + i)) ∧
    ∀ i < nd, d i = w.e (nu + (nz + i)) := by
  refine ⟨⟨0, fun i => if i < nu then u i else if i < nu + nz then z (i - nu) else d (i - nu - nz)⟩, fun i hi => ?_, fun i hi => ?_, fun i hi => ?_⟩
  · simp [hi]
  · simp [hi]
  · simp only []
    rw [if_neg (by omega), if_neg (by omega), show nu + (nz + i) - nu - nz = i by omega]

theorem vecMul_dot {nu nz nd nx : ℕ} {q : MpMIQP} (hq : MiShape nu nz nd nx q) {x : Vec ℝ} (hx : x.n = nx) :
    (Mat.vecMul x q.Hxx).dot x = quad q.Hxx x.e := by
  unfold quad
  rw [Finset.sum_comm]
  refine Finset.sum_congr rfl fun j _ => ?_
  show (∑ i ∈ range x.n, _) * x.e j = _
  rw [Finset.sum_mul, hx, hq.Hxx.1]

/-- C85, what holds: for a program without tiny entries at `x`, `solve(x)` never raises, answers exactly when the mixed-integer program has
a minimum, and returns a minimizer (split in `u`, `z`, `d`) and the minimum, with the term that does not depend on the decisions included.
Missing with respect to C85: tiny entries (false, see `C85_false`). -/
theorem C85_partial (G : Gurobi) (hG : GurobiSpec G) (nu nz nd nx : ℕ) (q : MpMIQP) (hq : MiShape nu nz nd nx q) (x : Vec ℝ) (hx : x.n = nx)
    (ht : MiNoTiny q x.e) :
    ∃ s, q.solve G x = .ok s ∧
      (s.min = none ↔ ¬ ∃ u z d, MiOpt q.Huu q.Hzz q.Hzx q.Hxx q.Au q.Az q.Ad q.Ax q.b nd x.e u z d) ∧
      (s.min = none → s.u = none ∧ s.z = none ∧ s.d = none) ∧
      ∀ V, s.min = some V → ∃ u z d, s.u = some u ∧ s.z = some z ∧ s.d = some d ∧ u.n = nu ∧ z.n = nz ∧ d.n = nd ∧
        MiOpt q.Huu q.Hzz q.Hzx q.Hxx q.Au q.Az q.Ad q.Ax q.b nd x.e u.e z.e d.e ∧ V = miCost q.Huu q.Hzz q.Hzx q.Hxx u.e z.e x.e := by
  obtain ⟨H, f, A, b, hsf, h1, h2, h3, h4, h5, h6, h7, h8⟩ := standardForm_ok hq hx
  obtain ⟨tH, tr⟩ := h8 ht
  obtain ⟨s, hs, s1, s2, s3⟩ := C80 G hG (nu + nz) (nu + (nz + nd)) H f A b none none h1 h2 h3 ⟨h4, h5⟩ tH tr
  have hbin : ∀ v : Vec ℝ, BinaryFrom (nu + nz) (nu + (nz + nd)) v ↔ Binary nd (fun i => v.e (nu + (nz + i))) := by
    intro v
    constructor
    · intro h i hi
      exact h _ (by omega) (by omega)
    · intro h j hj hj'
      obtain ⟨i, rfl⟩ := Nat.exists_eq_add_of_le hj'
      have : v.e (nu + (nz + i)) = 0 ∨ v.e (nu + (nz + i)) = 1 := h i (by omega)
      rwa [← Nat.add_assoc] at this
  have hfe : ∀ v : Vec ℝ, Feasible A b none none v ↔ MiFeas q.Au q.Az q.Ad q.Ax q.b v.e (fun i => v.e (nu + i)) (fun i => v.e (nu + (nz + i))) x.e :=
    fun v => ⟨fun h => (h6 v).1 h.1, fun h => ⟨(h6 v).2 h, trivial⟩⟩
  have hopt : ∀ v : Vec ℝ, ((Feasible A b none none v ∧ BinaryFrom (nu + nz) (nu + (nz + nd)) v) ∧
      ∀ v', Feasible A b none none v' → BinaryFrom (nu + nz) (nu + (nz + nd)) v' → qpCost H f v ≤ qpCost H f v') ↔
      MiOpt q.Huu q.Hzz q.Hzx q.Hxx q.Au q.Az q.Ad q.Ax q.b nd x.e v.e (fun i => v.e (nu + i)) (fun i => v.e (nu + (nz + i))) := by
    intro v
    constructor
    · rintro ⟨⟨a1, a2⟩, a3⟩
      refine ⟨⟨(hbin v).1 a2, (hfe v).1 a1⟩, fun u' z' d' hb' hf' => ?_⟩
      obtain ⟨w, e1, e2, e3⟩ := joined nu nz nd u' z' d'
      obtain ⟨c1, c2⟩ := mi_congr hq (x := x.e) (z' := fun i => w.e (nu + i)) (d' := fun i => w.e (nu + (nz + i))) e1 e2 e3
      have := a3 w ((hfe w).2 (c1.1 hf')) ((hbin w).2 fun i hi => by show w.e _ = 0 ∨ w.e _ = 1; rw [← e3 i hi]; exact hb' i hi)
      rw [c2, ← h7, ← h7]
      linarith
    · rintro ⟨⟨a1, a2⟩, a3⟩
      refine ⟨⟨(hfe v).2 a2, (hbin v).2 a1⟩, fun v' b1 b2 => ?_⟩
      have := a3 _ _ _ ((hbin v').1 b2) ((hfe v').1 b1)
      rw [← h7, ← h7] at this
      linarith
  have hrun : q.solve G x = q.reshape x s := by
    unfold MpMIQP.solve
    rw [hsf, Py.ok_bind]
    simp only []
    rw [hs, Py.ok_bind]
  have hex : (∃ u z d, MiOpt q.Huu q.Hzz q.Hzx q.Hxx q.Au q.Az q.Ad q.Ax q.b nd x.e u z d) ↔
      ∃ v : Vec ℝ, (Feasible A b none none v ∧ BinaryFrom (nu + nz) (nu + (nz + nd)) v) ∧
      ∀ v', Feasible A b none none v' → BinaryFrom (nu + nz) (nu + (nz + nd)) v' → qpCost H f v ≤ qpCost H f v' := by
    constructor
    · rintro ⟨u, z, d, ⟨a1, a2⟩, a3⟩
      obtain ⟨w, e1, e2, e3⟩ := joined nu nz nd u z d
      obtain ⟨c1, c2⟩ := mi_congr hq (x := x.e) (z' := fun i => w.e (nu + i)) (d' := fun i => w.e (nu + (nz + i))) e1 e2 e3
      refine ⟨w, (hopt w).2 ⟨⟨fun i hi => ?_, c1.1 a2⟩, fun u' z' d' b1 b2 => ?_⟩⟩
      · show w.e _ = 0 ∨ w.e _ = 1
        rw [← e3 i hi]
        exact a1 i hi
      · rw [← c2]
        exact a3 u' z' d' b1 b2
    · rintro ⟨v, hv⟩
      exact ⟨_, _, _, (hopt v).1 hv⟩
  rw [hrun, hex]
  cases hm : s.min with
  | none =>
    have : q.reshape x s = .ok ⟨none, none, none, none⟩ := by
      unfold MpMIQP.reshape
      rw [hm]
    exact ⟨_, this, by rw [← s1, hm], fun _ => ⟨rfl, rfl, rfl⟩, fun V hV => (by cases hV)⟩
  | some m =>
    obtain ⟨v, v1, v2, v3, v4, v5, v6⟩ := s3 m hm
    have k1 : np.dotVM x q.Hxx = .ok (Mat.vecMul x q.Hxx) := if_pos (by rw [hx, hq.Hxx.1])
    have k2 : np.dotVV (Mat.vecMul x q.Hxx) x = .ok ((Mat.vecMul x q.Hxx).dot x) := if_pos (by show q.Hxx.nc = _; rw [hx, hq.Hxx.2])
    have kq := vecMul_dot hq hx
    have : q.reshape x s = .ok ⟨some (m + 1 / 2 * quad q.Hxx x.e), some (v.slice 0 nu), some (v.slice nu (nu + nz)), some (v.dropN (nu + nz))⟩ := by
      unfold MpMIQP.reshape
      rw [hm, v1]
      simp only [k1, Py.ok_bind, k2, kq, hq.Au.2, hq.Az.2]
      rfl
    refine ⟨_, this, ?_, fun h => (by cases h), fun V hV => ?_⟩
    · rw [← s1, hm]
      simp
    · cases hV
      have e1 : (v.slice 0 nu).e = v.e := by
        funext i
        show v.e (0 + i) = _
        rw [Nat.zero_add]
      have e3 : (v.dropN (nu + nz)).e = fun i => v.e (nu + (nz + i)) := by
        funext i
        show v.e (nu + nz + i) = _
        rw [Nat.add_assoc]
      refine ⟨_, _, _, rfl, rfl, rfl, ?_, ?_, ?_, ?_, ?_⟩
      · show min nu v.n - 0 = nu
        omega
      · show min (nu + nz) v.n - nu = nz
        omega
      · show v.n - (nu + nz) = nd
        omega
      · rw [e1, e3]
        exact (hopt v).1 ⟨⟨v3, v4⟩, v6⟩
      · rw [e1, v5]
        exact h7 v

theorem drop_tiny {a : ℝ} (h : |a| ≤ 1e-9) : drop 1e-9 a = 0 := by
  unfold drop
  rw [if_neg (not_lt.2 h)]

/-- if all the coefficients of the cost are tiny, the value that is returned is the constant term -/
theorem solve_tiny {G : Gurobi} (hG : GurobiSpec G) {nu nz nd nx : ℕ} {q : MpMIQP} (hq : MiShape nu nz nd nx q) {x : Vec ℝ} (hx : x.n = nx)
    (hu : AllM (fun a => |a| ≤ 1e-9) q.Huu) (hz : AllM (fun a => |a| ≤ 1e-9) q.Hzz) (hf : ∀ i < q.Hzx.nr, |rowVal q.Hzx i x.e| ≤ 1e-9) {s : MiSol}
    (hs : q.solve G x = .ok s) {V : ℝ} (hV : s.min = some V) : V = 1 / 2 * quad q.Hxx x.e := by
  obtain ⟨H, f, A, b, hsf, h1, h2, h3, h4, h5, -⟩ := standardForm_ok hq hx
  have hsf' := hsf
  unfold MpMIQP.standardForm at hsf'
  obtain ⟨Hx, e1, hsf'⟩ := Py.bind_eq_ok hsf'
  obtain ⟨f', e2, hsf'⟩ := Py.bind_eq_ok hsf'
  obtain ⟨A', -, hsf'⟩ := Py.bind_eq_ok hsf'
  obtain ⟨Axx, -, hsf'⟩ := Py.bind_eq_ok hsf'
  obtain ⟨b', -, hsf'⟩ := Py.bind_eq_ok hsf'
  simp only [pure, Except.pure, Except.ok.injEq, Prod.mk.injEq] at hsf'
  obtain ⟨-, rfl, rfl, -, -⟩ := hsf'
  have k1 : np.dotMV q.Hzx x = .ok (q.Hzx.mulVec x) := if_pos (by rw [hq.Hzx.2, hx])
  rw [k1] at e1
  cases e1
  have e2 : .ok ((Vec.zeros q.Au.nc).append ((q.Hzx.mulVec x).append (Vec.zeros q.Ad.nc))) = (Except.ok f' : Py (Vec ℝ)) := e2
  cases e2
  have tz : |(0 : ℝ)| ≤ 1e-9 := by norm_num
  have tH : AllM (fun a => |a| ≤ 1e-9) (np.block_diag [q.Huu, q.Hzz, Mat.zeros q.Ad.nc q.Ad.nc]) := by
    refine all_block_diag (p := fun a => |a| ≤ 1e-9) tz fun M hM => ?_
    simp only [List.mem_cons, List.not_mem_nil, or_false] at hM
    rcases hM with rfl | rfl | rfl
    · exact hu
    · exact hz
    · exact all_zeros (p := fun a => |a| ≤ 1e-9) tz _ _
  have tf : AllV (fun a => |a| ≤ 1e-9) ((Vec.zeros q.Au.nc).append ((q.Hzx.mulVec x).append (Vec.zeros q.Ad.nc))) :=
    all_append (p := fun a => |a| ≤ 1e-9) (all_zerosV (p := fun a => |a| ≤ 1e-9) tz _)
      (all_append (p := fun a => |a| ≤ 1e-9) hf (all_zerosV (p := fun a => |a| ≤ 1e-9) tz _))
  obtain ⟨M, hM, hB⟩ := build_model_ok h3 (fun H' h => by cases h; exact ⟨h1, h2⟩) (show ConstrShape _ A b none none from ⟨h4, h5⟩)
    (H := some (np.block_diag [q.Huu, q.Hzz, Mat.zeros q.Ad.nc q.Ad.nc]))
  unfold MpMIQP.solve at hs
  rw [hsf, Py.ok_bind] at hs
  simp only [Grb.mixed_integer_quadratic_program] at hs
  rw [hM, Py.ok_bind] at hs
  obtain ⟨M', hM'⟩ : ∃ M' : GModel, M' = { M with bin := fun j => open Classical in decide (nu + nz ≤ j) } := ⟨_, rfl⟩
  have hwf : M'.Wf := by rw [hM']; exact hB.wf
  have hob : ∀ y, M'.obj y = 0 := fun y => by
    have : M'.obj y = M.obj y := by rw [hM']; rfl
    rw [this, hB.obj_qp]
    unfold qpCost dropM dropV
    simp only
    rw [Finset.sum_eq_zero fun i hi => Finset.sum_eq_zero fun j hj => by rw [drop_tiny (tH i (mem_range.1 hi) j (mem_range.1 hj)), mul_zero, zero_mul],
      Finset.sum_eq_zero fun i hi => by rw [drop_tiny (tf i (mem_range.1 hi)), zero_mul]]
    ring
  have hopt : ∀ r, G.optimize M' = some r → r.objVal = 0 := fun r hr => by
    rw [(hG.sound M' r hwf hr).2.2, hob]
  rw [← show M' = { M with bin := fun j => decide (nu + nz ≤ j) } by rw [hM']] at hs
  cases ho : G.optimize M' with
  | none =>
    rw [ho] at hs
    cases hs
    cases hV
  | some r =>
    rw [ho] at hs
    replace hs : q.reshape x ⟨some r.objVal, some r.x⟩ = .ok s := hs
    unfold MpMIQP.reshape at hs
    obtain ⟨xH, k3, hs⟩ := Py.bind_eq_ok hs
    obtain ⟨xHx, k4, hs⟩ := Py.bind_eq_ok hs
    cases hs
    have k1 : np.dotVM x q.Hxx = .ok (Mat.vecMul x q.Hxx) := if_pos (by rw [hx, hq.Hxx.1])
    rw [k1] at k3
    cases k3
    have k2 : np.dotVV (Mat.vecMul x q.Hxx) x = .ok ((Mat.vecMul x q.Hxx).dot x) := if_pos (by show q.Hxx.nc = _; rw [hx, hq.Hxx.2])
    rw [k2] at k4
    cases k4
    cases hV
    rw [hopt r ho, zero_add, vecMul_dot hq hx]

/-- minimize `1/2 1e-9 u²` subject to `u ≥ 1` (and a binary variable without effect) -/
noncomputable def tinyCost : MpMIQP :=
  ⟨⟨1, 1, fun _ _ => 1e-9⟩, Mat.zeros 0 0, Mat.zeros 1 1, Mat.zeros 0 1, ⟨1, 1, fun _ _ => -1⟩, Mat.zeros 1 0, Mat.zeros 1 1, Mat.zeros 1 1, ⟨1, fun _ => -1⟩⟩

theorem tinyCost_shape : MiShape 1 0 1 1 tinyCost := ⟨⟨rfl, rfl⟩, ⟨rfl, rfl⟩, ⟨rfl, rfl⟩, ⟨rfl, rfl⟩, ⟨rfl, rfl⟩, ⟨rfl, rfl⟩, ⟨rfl, rfl⟩, ⟨rfl, rfl⟩⟩

/-- C85 is false of the code: the program has the minimum `1/2 1e-9`, in `u = 1`, but whatever the optimizer answers the returned value is
not the minimum (it is `0`). -/
theorem C85_false : ∃ (q : MpMIQP) (x : Vec ℝ), MiShape 1 0 1 1 q ∧ x.n = 1 ∧
    (∃ u z d, MiOpt q.Huu q.Hzz q.Hzx q.Hxx q.Au q.Az q.Ad q.Ax q.b 1 x.e u z d) ∧
    ∀ G, GurobiSpec G → ∀ s V, q.solve G x = .ok s → s.min = some V → ∀ u z d,
      MiOpt q.Huu q.Hzz q.Hzx q.Hxx q.Au q.Az q.Ad q.Ax q.b 1 x.e u z d → V ≠ miCost q.Huu q.Hzz q.Hzx q.Hxx u z x.e := by
  have hfe : ∀ u z d x : ℕ → ℝ, MiFeas tinyCost.Au tinyCost.Az tinyCost.Ad tinyCost.Ax tinyCost.b u z d x ↔ 1 ≤ u 0 := by
    intro u z d x
    constructor
    · intro h
      have := h 0 (by show 0 < 1; norm_num)
      simp [tinyCost, rowVal, Mat.zeros] at this
      exact this
    · intro h i hi
      have hi : i < 1 := hi
      interval_cases i
      simp [tinyCost, rowVal, Mat.zeros]
      exact h
  have hco : ∀ u z x : ℕ → ℝ, miCost tinyCost.Huu tinyCost.Hzz tinyCost.Hzx tinyCost.Hxx u z x = 1 / 2 * (1e-9 * u 0 ^ 2) := by
    intro u z x
    simp [miCost, quad, tinyCost, Mat.zeros]
    ring
  refine ⟨tinyCost, ⟨1, fun _ => 0⟩, tinyCost_shape, rfl, ⟨fun _ => 1, fun _ => 0, fun _ => 0, ⟨fun i _ => Or.inl rfl, (hfe _ _ _ _).2 le_rfl⟩,
    fun u' z' d' _ hf' => ?_⟩, fun G hG s V hs hV u z d hopt => ?_⟩
  · rw [hco, hco]
    have := (hfe _ _ _ _).1 hf'
    nlinarith
  · have h0 := solve_tiny hG tinyCost_shape rfl (fun _ _ _ _ => by norm_num [tinyCost]) (fun _ _ _ _ => by norm_num [tinyCost, Mat.zeros])
      (fun _ _ => by norm_num [tinyCost, rowVal, Mat.zeros]) hs hV
    rw [h0, hco]
    have h1 := (hfe _ _ _ _).1 hopt.1.2
    have h2 : quad tinyCost.Hxx (fun _ => 0) = 0 := by simp [quad]
    rw [h2]
    have : 0 < u 0 ^ 2 := by positivity
    linarith

/-- minimize `1/2 u² + 1/2 z² + z x + x²/2` subject to `u + z + 2 d + x ≤ 0`, with `d` binary -/
noncomputable def someMi : MpMIQP :=
  ⟨⟨1, 1, fun _ _ => 1⟩, ⟨1, 1, fun _ _ => 1⟩, ⟨1, 1, fun _ _ => 1⟩, ⟨1, 1, fun _ _ => 1⟩, ⟨1, 1, fun _ _ => 1⟩, ⟨1, 1, fun _ _ => 1⟩, ⟨1, 1, fun _ _ => 2⟩,
    ⟨1, 1, fun _ _ => 1⟩, ⟨1, fun _ => 0⟩⟩

/-- C85 on the example: at `x = 1` the value is `0` -/
example (G : Gurobi) (hG : GurobiSpec G) : ∃ s, someMi.solve G ⟨1, fun _ => 1⟩ = .ok s ∧ s.min = some 0 := by
  have hsh : MiShape 1 1 1 1 someMi := ⟨⟨rfl, rfl⟩, ⟨rfl, rfl⟩, ⟨rfl, rfl⟩, ⟨rfl, rfl⟩, ⟨rfl, rfl⟩, ⟨rfl, rfl⟩, ⟨rfl, rfl⟩, ⟨rfl, rfl⟩⟩
  obtain ⟨s, h1, h2, -, h3⟩ := C85_partial G hG 1 1 1 1 someMi hsh ⟨1, fun _ => 1⟩ rfl
    ⟨fun _ _ _ _ => by norm_num [someMi], fun _ _ _ _ => by norm_num [someMi], fun _ _ _ _ => by norm_num [someMi], fun _ _ _ _ => by norm_num [someMi],
      fun _ _ _ _ => by norm_num [someMi], fun _ _ => by norm_num [someMi, rowVal], fun _ _ => by norm_num [someMi, rowVal]⟩
  have hco : ∀ u z : ℕ → ℝ, miCost someMi.Huu someMi.Hzz someMi.Hzx someMi.Hxx u z (fun _ => 1) = 1 / 2 * u 0 ^ 2 + 1 / 2 * (z 0 + 1) ^ 2 := by
    intro u z
    simp [miCost, quad, someMi]
    ring
  have hopt : MiOpt someMi.Huu someMi.Hzz someMi.Hzx someMi.Hxx someMi.Au someMi.Az someMi.Ad someMi.Ax someMi.b 1 (fun _ => 1) (fun _ => 0) (fun _ => -1)
      (fun _ => 0) := by
    refine ⟨⟨fun i _ => Or.inl rfl, fun i hi => ?_⟩, fun u' z' d' _ _ => ?_⟩
    · simp [someMi, rowVal]
    · rw [hco, hco]
      norm_num
      positivity
  cases hm : s.min with
  | none => exact absurd ⟨_, _, _, hopt⟩ (h2.1 hm)
  | some V =>
    refine ⟨s, h1, ?_⟩
    obtain ⟨u, z, d, -, -, -, -, -, -, ho, hV⟩ := h3 V hm
    have a := ho.2 _ _ _ hopt.1.1 hopt.1.2
    rw [hco, hco] at a
    rw [hco] at hV
    have b : 0 ≤ 1 / 2 * u.e 0 ^ 2 + 1 / 2 * (z.e 0 + 1) ^ 2 := by positivity
    norm_num at a
    rw [hm, hV]
    congr 1
    norm_num
    linarith

end Verif.Props
