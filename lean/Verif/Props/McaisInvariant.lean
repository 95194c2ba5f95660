import Verif.Props.McaisTermination

/- Invariance of the result of `mcais`: C55 of properties.jsonl. -/
namespace Verif.Props
open Dyn Spec Finset

/-- `A x` -/
def image (A : Mat ℝ) (x : ℕ → ℝ) : ℕ → ℝ := fun i => ∑ j ∈ range A.nc, A.e i j * x j

theorem orbit_image (A : Mat ℝ) (x : ℕ → ℝ) : ∀ t, orbit A (image A x) t = orbit A x (t + 1)
  | 0 => rfl
  | t + 1 => by
    funext i
    rw [orbit, orbit_image A x t]
    rfl

theorem staysIn_invariant {X : Poly} {A : Mat ℝ} {x : ℕ → ℝ} (h : StaysIn X A x) : X.Mem x ∧ StaysIn X A (image A x) :=
  ⟨h 0, fun t => by rw [orbit_image]; exact h (t + 1)⟩

/-- state and input of the system under the feedback `u = K x` -/
def withInput (nx : ℕ) (K : Mat ℝ) (x : ℕ → ℝ) : ℕ → ℝ :=
  fun j => if j < nx then x j else ∑ k ∈ range nx, K.e (j - nx) k * x k

/-- `x` is the trajectory of the system under the feedback `u = K x` from `x0` -/
structure ClosedLoopTraj (S : LinearSystem) (K : Mat ℝ) (x0 : ℕ → ℝ) (x : ℕ → ℕ → ℝ) : Prop where
  start : ∀ i < S.nx, x 0 i = x0 i
  step : ∀ t, ∀ i < S.nx, x (t + 1) i = ∑ j ∈ range S.nx, S.A.e i j * x t j
    + ∑ k ∈ range S.nu, S.B.e i k * ∑ j ∈ range S.nx, K.e k j * x t j

/-- the matrices of the closed loop system -/
theorem closedLoop_ok {S : LinearSystem} (hS : SystemShape S.nx S.nu S.A S.B (Vec.zeros S.nx)) {K : Mat ℝ} (hK : K.nr = S.nu ∧ K.nc = S.nx)
    {D : Poly} (hD : D.Inv (S.nx + S.nu)) : ∃ Acl Xcl, closedLoop S K D = .ok (Acl, Xcl) ∧ Acl.nr = S.nx ∧ Acl.nc = S.nx ∧
      Xcl.Inv S.nx ∧ Xcl.C.nr = 0 ∧ Xcl._empty = none ∧ Xcl._bounded = none ∧
      (∀ (x : ℕ → ℝ), ∀ i < S.nx, image Acl x i = ∑ j ∈ range S.nx, S.A.e i j * x j
        + ∑ k ∈ range S.nu, S.B.e i k * ∑ j ∈ range S.nx, K.e k j * x j) ∧
      (D.C.nr = 0 → ∀ x, Xcl.Mem x ↔ D.Mem (withInput S.nx K x)) ∧ Xcl.A.nr = D.A.nr ∧ Xcl.b = D.b ∧
      (∀ (x : ℕ → ℝ) (i : ℕ), rowVal Xcl.A i x = rowVal D.A i (withInput S.nx K x)) := by
  obtain ⟨a1, a2, a3, a4, -⟩ := hS
  obtain ⟨k1, k2⟩ := hK
  obtain ⟨d1, d2, d3, d4⟩ := id hD
  have hto : (D.A.colsTo S.nx).nc = S.nx := by show min S.nx D.A.nc = S.nx; rw [d1]; omega
  have hfrom : (D.A.colsFrom S.nx).nc = S.nu := by show D.A.nc - S.nx = S.nu; rw [d1]; omega
  have e1 : np.dotMM S.B K = .ok (S.B.mul K) := if_pos (a4.trans k1.symm)
  have e2 : np.addM S.A (S.B.mul K) = .ok (S.A.add (S.B.mul K)) := if_pos ⟨a1.trans a3.symm, a2.trans k2.symm⟩
  have e3 : np.dotMM (D.A.colsFrom S.nx) K = .ok ((D.A.colsFrom S.nx).mul K) := if_pos (hfrom.trans k1.symm)
  have e4 : np.addM (D.A.colsTo S.nx) ((D.A.colsFrom S.nx).mul K) = .ok ((D.A.colsTo S.nx).add ((D.A.colsFrom S.nx).mul K)) :=
    if_pos ⟨rfl, hto.trans k2.symm⟩
  let XA := (D.A.colsTo S.nx).add ((D.A.colsFrom S.nx).mul K)
  have e5 : Poly.init XA (.d1 D.b) = .ok (Poly.fresh XA D.b (Mat.zeros 0 XA.nc) (Vec.zeros 0)) := by
    have hs : Poly.sameNumberRows XA (.d1 D.b) = .ok () := if_neg (not_not.2 d2.symm)
    unfold Poly.init
    rw [show Poly.oneDim (.d1 D.b) = .ok D.b from rfl, Py.ok_bind, hs]
    rfl
  have hrow : ∀ (x : ℕ → ℝ) (i : ℕ), rowVal XA i x = rowVal D.A i (withInput S.nx K x) := by
    intro x i
    unfold rowVal
    rw [show XA.nc = S.nx from hto, d1, Finset.sum_range_add]
    rw [show (∑ j ∈ range S.nx, XA.e i j * x j) = ∑ j ∈ range S.nx, D.A.e i j * x j
        + ∑ j ∈ range S.nx, (∑ k ∈ range (D.A.colsFrom S.nx).nc, D.A.e i (S.nx + k) * K.e k j) * x j from by
      rw [← Finset.sum_add_distrib]
      exact Finset.sum_congr rfl fun j _ => add_mul _ _ _]
    congr 1
    · exact Finset.sum_congr rfl fun j hj => by rw [withInput, if_pos (Finset.mem_range.1 hj)]
    · rw [hfrom]
      simp only [Finset.sum_mul]
      rw [Finset.sum_comm]
      refine Finset.sum_congr rfl fun k _ => ?_
      rw [withInput, if_neg (by omega), Nat.add_sub_cancel_left, Finset.mul_sum]
      exact Finset.sum_congr rfl fun j _ => by ring
  refine ⟨S.A.add (S.B.mul K), Poly.fresh XA D.b (Mat.zeros 0 XA.nc) (Vec.zeros 0), ?_, a1, a2, ⟨hto, d2, hto, rfl⟩, rfl, rfl, rfl,
    ?_, ?_, rfl, rfl, hrow⟩
  · unfold closedLoop
    rw [e1, Py.ok_bind, e2, Py.ok_bind, e3, Py.ok_bind, e4, Py.ok_bind, e5]
    rfl
  · intro x i _
    unfold image
    rw [show (S.A.add (S.B.mul K)).nc = S.nx from a2]
    rw [show (∑ j ∈ range S.nx, (S.A.add (S.B.mul K)).e i j * x j) = ∑ j ∈ range S.nx, S.A.e i j * x j
        + ∑ j ∈ range S.nx, (∑ k ∈ range S.B.nc, S.B.e i k * K.e k j) * x j from by
      rw [← Finset.sum_add_distrib]
      exact Finset.sum_congr rfl fun j _ => add_mul _ _ _]
    congr 1
    rw [a4]
    simp only [Finset.sum_mul, Finset.mul_sum]
    rw [Finset.sum_comm]
    exact Finset.sum_congr rfl fun k _ => Finset.sum_congr rfl fun j _ => by ring
  · intro hC x
    rw [mem_noeq rfl, mem_noeq hC]
    exact forall₂_congr fun i _ => by rw [← hrow]; rfl

theorem withInput_congr {S : LinearSystem} (K : Mat ℝ) {x y : ℕ → ℝ} (h : ∀ i < S.nx, x i = y i) :
    withInput S.nx K x = withInput S.nx K y := by
  funext j
  unfold withInput
  split_ifs with hj
  · exact h j hj
  · exact Finset.sum_congr rfl fun k hk => by rw [h k (Finset.mem_range.1 hk)]

theorem closedLoop_traj {S : LinearSystem} {K Acl : Mat ℝ} (hn : Acl.nc = S.nx)
    (h : ∀ (x : ℕ → ℝ), ∀ i < S.nx, image Acl x i = ∑ j ∈ range S.nx, S.A.e i j * x j
        + ∑ k ∈ range S.nu, S.B.e i k * ∑ j ∈ range S.nx, K.e k j * x j)
    {x0 : ℕ → ℝ} {x : ℕ → ℕ → ℝ} (hx : ClosedLoopTraj S K x0 x) : ∀ t, ∀ i < S.nx, orbit Acl x0 t i = x t i
  | 0, i, hi => (hx.start i hi).symm
  | t + 1, i, hi => by
    rw [hx.step t i hi, ← h (x t) i hi, orbit, image]
    exact Finset.sum_congr rfl fun j hj => by
      rw [closedLoop_traj hn h hx t j (by have := Finset.mem_range.1 hj; omega)]

/-- C55, the part that holds: the set that `mcais` has before it removes redundant facets is invariant and inside `X`, and so is the
set that it returns when no removed facet cuts off points by less than the tolerance.  If the domain `D` has no equalities, the
problem that `LinearSystem.mcais` solves is the one of the closed loop: a state stays in the polyhedron `X_cl` under `A_cl` for ever
if and only if state and input of the closed loop trajectory from it stay in `D` for ever.  Missing: facets that cut off points by less than
the tolerance, and domains with equalities (see `C55_false`). -/
theorem C55_partial (L : Lib) (hL : LibSpec L) :
    (∀ (n : ℕ) (A : Mat ℝ) (X : Poly), McaisData L n A X → ∀ fuel O, mcais L A X fuel = .ok (some O) →
      ∃ Ob r, mcaisBefore L A X fuel = .ok (some Ob) ∧ O.A = Ob.A.rows r ∧ O.b = Ob.b.take r ∧
        (∀ x, Ob.Mem x → X.Mem x ∧ Ob.Mem (image A x)) ∧
        ((∀ i < Ob.A.nr, i ∉ r → GapAt Ob.A Ob.b Ob.C Ob.d 1e-7 {j | j ∈ r ∨ i < j} i) →
          ∀ x, O.Mem x → X.Mem x ∧ O.Mem (image A x))) ∧
    ∀ (S : LinearSystem) (K : Mat ℝ) (D : Poly), SystemShape S.nx S.nu S.A S.B (Vec.zeros S.nx) → K.nr = S.nu ∧ K.nc = S.nx →
      D.Inv (S.nx + S.nu) → D.C.nr = 0 →
      ∃ Acl Xcl, (∀ fuel, LinearSystem.mcais L S K D fuel = mcais L Acl Xcl fuel) ∧ Xcl.Inv S.nx ∧ Xcl._bounded = none ∧
        Xcl.EmptyOk L ∧ Xcl.C.nr = 0 ∧ Acl.nr = S.nx ∧ Acl.nc = S.nx ∧
        ∀ x0 x, ClosedLoopTraj S K x0 x → (StaysIn Xcl Acl x0 ↔ ∀ t, D.Mem (withInput S.nx K (x t))) := by
  constructor
  · intro n A X hd fuel O h
    obtain ⟨Ob, r, h1, h2, h3, h4, h5, h6, h7, h8, h9⟩ := (C54 L hL n A X hd).2 fuel O h
    refine ⟨Ob, r, h1, h4, h5, fun x hx => ?_, fun hg x hx => ?_⟩
    · obtain ⟨k1, k2⟩ := staysIn_invariant ((h2 x).1 hx)
      exact ⟨k1, (h2 _).2 k2⟩
    · obtain ⟨k1, k2⟩ := staysIn_invariant ((h9 hg x).1 hx)
      exact ⟨k1, (h9 hg _).2 k2⟩
  · intro S K D hS hK hD hC
    obtain ⟨Acl, Xcl, h1, h2, h3, h4, h5, h6, h7, h8, h9, -⟩ := closedLoop_ok hS hK hD
    refine ⟨Acl, Xcl, fun fuel => ?_, h4, h7, fun e he => (by rw [h6] at he; cases he), h5, h2, h3, fun x0 x hx => ?_⟩
    · unfold LinearSystem.mcais
      rw [h1]
      rfl
    · refine forall_congr' fun t => ?_
      rw [h9 hC, withInput_congr K (closedLoop_traj h3 h8 hx t)]

/-- the interval `[0, 1 - 5e-8]` with the redundant inequality `x ≤ 1` -/
noncomputable def almostUnit : Poly :=
  Poly.fresh ⟨3, 1, fun i _ => if i = 2 then -1 else 1⟩ ⟨3, fun i => if i = 0 then 1 - 5e-8 else if i = 1 then 1 else 0⟩
    (Mat.zeros 0 1) (Vec.zeros 0)

theorem almostUnit_mem (x : ℕ → ℝ) : almostUnit.Mem x ↔ 0 ≤ x 0 ∧ x 0 ≤ 1 - 5e-8 := by
  rw [mem_noeq rfl]
  show (∀ i < 3, _) ↔ _
  constructor
  · intro h
    have h0 := h 0 (by omega)
    have h2 := h 2 (by omega)
    simp [almostUnit, Poly.fresh, rowVal] at h0 h2
    exact ⟨h2, by linarith⟩
  · rintro ⟨h0, h1⟩ i hi
    interval_cases i <;> simp [almostUnit, Poly.fresh, rowVal] <;> norm_num at h1 ⊢ <;> linarith

/-- with one iteration the loop returns the set it started from, or does not stop -/
theorem loop_one {L : Lib} {A XA : Mat ℝ} {Xb : Vec ℝ} {O O' : Poly} (h : mcaisLoop L A XA Xb 1 O 1 = .ok (some O')) : O' = O := by
  unfold mcaisLoop at h
  obtain ⟨J, -, h⟩ := Py.bind_eq_ok h
  obtain ⟨res, -, h⟩ := Py.bind_eq_ok h
  dsimp only at h
  split_ifs at h with hf
  · cases h; rfl
  · obtain ⟨Jn, -, h⟩ := Py.bind_eq_ok h
    obtain ⟨bn, -, h⟩ := Py.bind_eq_ok h
    obtain ⟨O1, -, h⟩ := Py.bind_eq_ok h
    unfold mcaisLoop at h
    cases h

/-- for the system `x⁺ = 0`, one iteration is enough -/
theorem zero_system {L : Lib} (hL : LibSpec L) {n : ℕ} (hn : 0 < n) {X : Poly} {A : Mat ℝ} (hA : ∀ x, ∀ i < n, image A x i = 0)
    (hd : McaisData L n A X) (hb : X._bounded = none) :
    ∃ X' O, X'.A = X.A ∧ X'.b = X.b ∧ X'.C = X.C ∧ X'.d = X.d ∧ X'.EmptyOk L ∧ mcaisBefore L A X 1 = .ok (some X') ∧
      mcais L A X 1 = .ok (some O) := by
  have hz : Stable n A := by
    intro x i hi
    refine tendsto_const_nhds.congr' ?_
    filter_upwards [Filter.eventually_gt_atTop 0] with t ht
    obtain ⟨t, rfl⟩ := Nat.exists_eq_succ_of_ne_zero ht.ne'
    exact (hA _ i hi).symm
  obtain ⟨X', hX'⟩ := checks_ok hL hd hn (.inl hb) (no_eig_above hd.nr hd.nc hz)
  have hs := checks_state hL hd hX'
  rcases before_ok hL hd hX' 1 with ⟨-, h⟩ | ⟨O, t, h1, h2, h3, h4, h5, h6, h7, h8⟩
  · obtain ⟨x, -, hx⟩ := h 1 le_rfl (by omega)
    exact absurd ((Poly.mem_congr hd.inv fun i hi => hA x i hi).2 hd.origin) hx
  · obtain ⟨r, q, k1, -⟩ := after_ok hL hd h2 h3 h4 h8 h1
    have hO : O = X' := by
      unfold mcaisBefore at h1
      rw [hX', Py.ok_bind] at h1
      exact loop_one h1
    subst hO
    exact ⟨O, q, hs.1, hs.2.1, hs.2.2.1, hs.2.2.2.1, hs.2.2.2.2, h1, k1⟩

/-- C55 is false of the code.  (1) For the system `x⁺ = 0` and the interval `[0, 1 - 5e-8]` written with the redundant inequality
`x ≤ 1`, the result of `mcais` contains the point 1, which is not in the interval.  (2) `LinearSystem.mcais` ignores the equalities of the
domain: with `D = {|x| ≤ 1, |u| ≤ 1, x = 0}` and no feedback the result contains 1/2. -/
theorem C55_false :
    (∃ (A : Mat ℝ) (X : Poly), (∀ L, McaisData L 1 A X) ∧ ∀ L, LibSpec L → ∃ O, mcais L A X 1 = .ok (some O) ∧ ∃ x, O.Mem x ∧ ¬ X.Mem x) ∧
    ∃ (S : LinearSystem) (K : Mat ℝ) (D : Poly), SystemShape S.nx S.nu S.A S.B (Vec.zeros S.nx) ∧ (K.nr = S.nu ∧ K.nc = S.nx) ∧
      D.Inv (S.nx + S.nu) ∧ IsBounded (S.nx + S.nu) D.A D.b D.C D.d ∧ (D.Mem fun _ => 0) ∧
      ∀ L, LibSpec L → ∃ O, LinearSystem.mcais L S K D 1 = .ok (some O) ∧ ∃ x, O.Mem x ∧ ¬ D.Mem (withInput S.nx K x) := by
  constructor
  · have hd : ∀ L, McaisData L 1 (Mat.zeros 1 1) almostUnit := fun L =>
      ⟨rfl, rfl, ⟨rfl, rfl, rfl, rfl⟩, rfl, (almostUnit_mem _).2 ⟨le_rfl, by norm_num⟩, ⟨1, fun x hx j hj => by
        obtain ⟨h0, h1⟩ := (almostUnit_mem x).1 hx
        obtain rfl : j = 0 := by omega
        rw [abs_of_nonneg h0]
        norm_num at h1
        linarith⟩, fun e he => (by cases he), one_pos⟩
    refine ⟨Mat.zeros 1 1, almostUnit, hd, fun L hL => ?_⟩
    obtain ⟨X', O, e1, e2, e3, e4, e5, hb, hO⟩ := zero_system hL one_pos (A := Mat.zeros 1 1) (by simp [image, Mat.zeros]) (hd L) rfl
    have hinv : X'.Inv 1 := by unfold Poly.Inv; rw [e1, e2, e3, e4]; exact (hd L).inv
    have hnear : NearPoint 1 X'.A X'.b X'.C X'.d := by rw [e1, e2, e3, e4]; exact near_zero (hd L).origin
    obtain ⟨r, -, h2, h3, h4, h5, -⟩ := redundancy_run hL hinv (.inl (by rw [e1]; show 0 < almostUnit.A.nr; norm_num [almostUnit, Poly.fresh])) e5 hnear (.inl (by rw [e3]; rfl)) (tol := 1e-7) (by norm_num)
    have hOq : mcais L (Mat.zeros 1 1) almostUnit 1
        = .ok (some { X' with _empty := some false, A := X'.A.rows r, b := X'.b.take r }) := by
      unfold mcais
      rw [hb, Py.ok_bind]
      simp only
      rw [Poly.runOn, h2 rfl]
      rfl
    refine ⟨_, hOq, fun _ => 1, (mem_rows X' r _ _).2 ⟨?_, fun j hj => ?_⟩, fun h => ?_⟩
    · intro i hi
      rw [e3] at hi
      exact absurd hi (by simp [almostUnit, Poly.fresh, Mat.zeros])
    · have hj3 : j < 3 := by have := h4 j hj; rw [e1] at this; exact this
      rw [e1, e2]
      interval_cases j
      · obtain ⟨x, -, -, k1, k2⟩ := h5 0 hj
        have k3 := k1 1 (by rw [e1]; show 1 < 3; omega) (by omega)
        rw [e1, e2] at k2 k3
        simp [almostUnit, Poly.fresh, rowVal] at k2 k3
        norm_num at k2
        linarith
      · simp [almostUnit, Poly.fresh, rowVal]
      · simp [almostUnit, Poly.fresh, rowVal]
    · have := ((almostUnit_mem _).1 h).2
      norm_num at this
  · let S : LinearSystem := ⟨Mat.zeros 1 1, Mat.zeros 1 1, 1, 1, none⟩
    let D := Poly.fresh square.A square.b ⟨1, 2, fun _ j => if j = 0 then 1 else 0⟩ (Vec.zeros 1)
    have hmem : ∀ x, D.Mem x ↔ |x 0| ≤ 1 ∧ |x 1| ≤ 1 ∧ x 0 = 0 := by
      intro x
      have h1 : D.Mem x ↔ (∀ i < 4, rowVal square.A i x ≤ square.b.e i) ∧ EqHold D.C D.d x := Iff.rfl
      have h2 := (mem_noeq (p := square) rfl x).symm.trans (square_mem x)
      rw [h1, ← and_assoc]
      refine and_congr h2 ⟨fun h => ?_, fun h i hi => ?_⟩
      · have := h 0 (by show 0 < 1; omega)
        simpa [rowVal, D, Poly.fresh, Finset.sum_range_succ, Vec.zeros] using this
      · have : i < 1 := hi
        interval_cases i
        simpa [rowVal, D, Poly.fresh, Finset.sum_range_succ, Vec.zeros] using h
    have hS : SystemShape S.nx S.nu S.A S.B (Vec.zeros S.nx) := ⟨rfl, rfl, rfl, rfl, rfl⟩
    have hD : D.Inv (S.nx + S.nu) := ⟨rfl, rfl, rfl, rfl⟩
    refine ⟨S, Mat.zeros 1 1, D, hS, ⟨rfl, rfl⟩, hD, ⟨1, fun x hx j hj => ?_⟩, (hmem _).2 (by simp), fun L hL => ?_⟩
    · have : j < 2 := hj
      obtain ⟨h0, h1, -⟩ := (hmem x).1 hx
      interval_cases j
      · exact h0
      · exact h1
    obtain ⟨Acl, Xcl, h1, h2, h3, h4, h5, h6, h7, h8, -, h9, h10, h11⟩ := closedLoop_ok hS (K := Mat.zeros 1 1) ⟨rfl, rfl⟩ hD
    have hX : ∀ x, Xcl.Mem x ↔ |x 0| ≤ 1 := by
      intro x
      rw [mem_noeq h5, h9, h10]
      simp only [h11]
      refine (mem_noeq (p := square) rfl (withInput 1 (Mat.zeros 1 1) x)).symm.trans ((square_mem _).trans ?_)
      simp [withInput, Mat.zeros]
    have hd : McaisData L 1 Acl Xcl := ⟨h2, h3, h4, h5, (hX _).2 (by simp), ⟨1, fun x hx j hj => by
      obtain rfl : j = 0 := by omega
      exact (hX x).1 hx⟩, fun e he => (by rw [h6] at he; cases he), one_pos⟩
    have hA : ∀ x, ∀ i < 1, image Acl x i = 0 := fun x i hi => by
      rw [h8 x i hi]
      simp [S, Mat.zeros]
    obtain ⟨X', O, -, -, -, -, -, -, hO⟩ := zero_system hL one_pos hA hd h7
    obtain ⟨Ob, r, -, -, -, -, -, -, -, k, -⟩ := (C54 L hL 1 Acl Xcl hd).2 1 O hO
    refine ⟨O, ?_, fun _ => 1 / 2, k _ fun t => (hX _).2 ?_, fun h => ?_⟩
    · unfold LinearSystem.mcais
      rw [h1]
      exact hO
    · cases t with
      | zero => simp only [orbit]; norm_num [abs_of_pos]
      | succ t => rw [show orbit Acl (fun _ => 1 / 2) (t + 1) 0 = 0 from hA _ 0 one_pos]; simp
    · have := ((hmem _).1 h).2.2
      simp [withInput, S] at this

/-- the hypotheses of the second part of `C55_partial` are met by `x⁺ = x + u`, the feedback `u = -x / 2` and the square; the
trajectories of the closed loop are `x(t) = x0 / 2^t` -/
example : let S : LinearSystem := ⟨Mat.eye 1, Mat.eye 1, 1, 1, none⟩
    let K : Mat ℝ := ⟨1, 1, fun _ _ => -1 / 2⟩
    SystemShape S.nx S.nu S.A S.B (Vec.zeros S.nx) ∧ (K.nr = S.nu ∧ K.nc = S.nx) ∧ square.Inv (S.nx + S.nu) ∧ square.C.nr = 0 ∧
      ClosedLoopTraj S K (fun _ => 1) (fun t _ => 1 / 2 ^ t) := by
  refine ⟨⟨rfl, rfl, rfl, rfl, rfl⟩, ⟨rfl, rfl⟩, ⟨rfl, rfl, rfl, rfl⟩, rfl, fun i _ => by simp, fun t i hi => ?_⟩
  have : i < 1 := hi
  interval_cases i
  simp [Mat.eye]
  rw [pow_succ]
  field_simp
  ring

end Verif.Props
