import Verif.Proofs.HybridCondense
import Verif.Proofs.HybridBigM
import Verif.Proofs.Mpc

/- Points of the mixed-integer program and trajectories of the piecewise affine system. -/
namespace Verif
namespace Control
open Finset Spec Dyn

/-- the optimal control problem of the controller -/
noncomputable def hyb (S : PWA) (N : ℕ) (Q R P : Mat ℝ) (X_N : Poly) : HybOcp :=
  ⟨S.nx, S.nu, S.nm, N, fun i => (sysAt S i).A, fun i => (sysAt S i).B, fun i => (sysAt S i).c, Q, R, P, fun i => (domAt S i).A,
    fun i => (domAt S i).b, fun i => (domAt S i).C, fun i => (domAt S i).d, X_N.A, X_N.b, X_N.C, X_N.d⟩

/-- the sizes of the arguments of the controller agree, the horizon is positive and the weights are symmetric -/
structure HybArgs (S : PWA) (N : ℕ) (Q R P : Mat ℝ) (X_N : Poly) : Prop where
  pwa : PwaShape S
  N : 0 < N
  Q : SymMat S.nx Q
  P : SymMat S.nx P
  R : R.nr = S.nu ∧ R.nc = S.nu
  XN : X_N.A.nc = S.nx ∧ X_N.b.n = X_N.A.nr

/-- a point that satisfies the inequalities of the program of a constructed controller up to `ε` satisfies those of the stages up to `ε` -/
theorem init_slack {L : Lib} {S : PWA} {N : ℕ} {Q R P : Mat ℝ} {X_N : Poly} (h : HybArgs S N Q R P X_N) {c : HMPC}
    (hrun : HMPC.init L S N Q R P X_N = .ok c) (ε : ℝ) (x u z d : ℕ → ℝ)
    (hf : ∀ r < c.mpmiqp.b.n, rowVal c.mpmiqp.Au r u + rowVal c.mpmiqp.Az r z + rowVal c.mpmiqp.Ad r d + rowVal c.mpmiqp.Ax r x ≤ c.mpmiqp.b.e r + ε) :
    (∀ t < N, StageSlack S c.alpha c.beta c.gamma ε (zState S.nx S.nm x z t) (unflat S.nu u t) (unflat (S.nx * S.nm) z t) (unflat S.nm d t)) ∧
      ∀ r < X_N.A.nr, rowVal X_N.A r (zState S.nx S.nm x z N) ≤ X_N.b.e r + ε := by
  unfold HMPC.init at hrun
  obtain ⟨⟨al, be⟩, h1, hrun⟩ := Py.bind_eq_ok hrun
  obtain ⟨ga, h2, hrun⟩ := Py.bind_eq_ok hrun
  obtain ⟨q, h3, hrun⟩ := Py.bind_eq_ok hrun
  cases hrun
  obtain ⟨a1, a2, -, -⟩ := bigM_dynamics_inv h.pwa h1
  obtain ⟨a3, -, -⟩ := bigM_domains_inv h.pwa h2
  obtain ⟨q', e1, e2, e3, e4⟩ := condense_hybrid_ok h.pwa a1 a2 a3 h.N ⟨h.Q.1, h.Q.2.1⟩ h.R ⟨h.P.1, h.P.2.1⟩ h.XN
  rw [e1] at h3
  cases h3
  exact (e3 ε x u z d).1 hf

/-- a controller that was constructed -/
theorem init_inv {L : Lib} {S : PWA} {N : ℕ} {Q R P : Mat ℝ} {X_N : Poly} (h : HybArgs S N Q R P X_N) {c : HMPC}
    (hrun : HMPC.init L S N Q R P X_N = .ok c) :
    (c.S = S ∧ c.N = N ∧ c.Q = Q ∧ c.R = R ∧ c.P = P ∧ c.X_N = X_N) ∧
    get_bigM_dynamics L S = .ok (c.alpha, c.beta) ∧ get_bigM_domains L S = .ok c.gamma ∧
    MiShape (S.nu * N) (S.nx * S.nm * N) (S.nm * N) S.nx c.mpmiqp ∧
    (∀ x u z d : ℕ → ℝ, MiFeas c.mpmiqp.Au c.mpmiqp.Az c.mpmiqp.Ad c.mpmiqp.Ax c.mpmiqp.b u z d x ↔
      (∀ t < N, StageRows S c.alpha c.beta c.gamma (zState S.nx S.nm x z t) (unflat S.nu u t) (unflat (S.nx * S.nm) z t) (unflat S.nm d t)) ∧
      IneqHold X_N.A X_N.b (zState S.nx S.nm x z N)) ∧
    ∀ x u z : ℕ → ℝ, miCost c.mpmiqp.Huu c.mpmiqp.Hzz c.mpmiqp.Hzx c.mpmiqp.Hxx u z x
      = lqCost Q R P (zState S.nx S.nm x z) (unflat S.nu u) N := by
  unfold HMPC.init at hrun
  obtain ⟨⟨al, be⟩, h1, hrun⟩ := Py.bind_eq_ok hrun
  obtain ⟨ga, h2, hrun⟩ := Py.bind_eq_ok hrun
  obtain ⟨q, h3, hrun⟩ := Py.bind_eq_ok hrun
  cases hrun
  obtain ⟨a1, a2, -, -⟩ := bigM_dynamics_inv h.pwa h1
  obtain ⟨a3, -, -⟩ := bigM_domains_inv h.pwa h2
  obtain ⟨q', e1, e2, e3, e4⟩ := condense_hybrid_ok h.pwa a1 a2 a3 h.N ⟨h.Q.1, h.Q.2.1⟩ h.R ⟨h.P.1, h.P.2.1⟩ h.XN
  rw [e1] at h3
  cases h3
  refine ⟨⟨rfl, rfl, rfl, rfl, rfl, rfl⟩, h1, h2, e2, fun x u z d => ?_, e4 h.Q h.P⟩
  have := e3 0 x u z d
  simp only [add_zero, stageSlack_zero] at this
  exact this

theorem sum_erase_delta {s m i : ℕ} (hm : m < s) (c d : ℕ → ℝ) (hd : ∀ j < s, d j = if j = m then 1 else 0) :
    ∑ j ∈ (range s).erase i, c j * d j = if i = m then 0 else c m := by
  have h1 : ∀ j ∈ (range s).erase i, c j * d j = if j = m then c m else 0 := fun j hj => by
    rw [hd j (mem_range.1 (Finset.mem_of_mem_erase hj))]
    split_ifs with h
    · rw [h, mul_one]
    · rw [mul_zero]
  rw [Finset.sum_congr rfl h1, Finset.sum_ite_eq']
  by_cases hi : i = m
  · rw [if_pos hi, if_neg (by rw [hi]; simp)]
  · rw [if_neg hi, if_pos (by simp [hm]; exact fun h => hi h.symm)]

/-- binary numbers with sum one: exactly one of them is one -/
theorem binary_one {s : ℕ} {d : ℕ → ℝ} (hd : ∀ i < s, d i = 0 ∨ d i = 1) (hsum : ∑ j ∈ range s, d j = 1) :
    ∃ m < s, ∀ j < s, d j = if j = m then 1 else 0 := by
  have h0 : ∀ i ∈ range s, 0 ≤ d i := fun i hi => by
    rcases hd i (mem_range.1 hi) with h | h <;> rw [h] <;> norm_num
  obtain ⟨m, hm, hne⟩ : ∃ m ∈ range s, d m ≠ 0 := by
    by_contra hno
    push Not at hno
    rw [Finset.sum_eq_zero hno] at hsum
    norm_num at hsum
  have hm1 : d m = 1 := (hd m (mem_range.1 hm)).resolve_left hne
  refine ⟨m, mem_range.1 hm, fun j hj => ?_⟩
  split_ifs with h
  · rw [h, hm1]
  · rw [← Finset.add_sum_erase _ _ hm, hm1] at hsum
    have hz : ∑ x ∈ (range s).erase m, d x = 0 := by linarith
    exact (Finset.sum_eq_zero_iff_of_nonneg fun i hi => h0 i (Finset.mem_of_mem_erase hi)).1 hz j (by simp [h, hj])

/-- the inequalities of a stage when the mode is `m`: what they say about `z` -/
theorem stage_sound {S : PWA} {al be ga : List (List (Mat ℝ))} {x u z d : ℕ → ℝ} (hs : StageRows S al be ga x u z d) {m : ℕ} (hm : m < S.nm)
    (hd : ∀ j < S.nm, d j = if j = m then 1 else 0) :
    (∀ i < S.nm, ∀ k < S.nx, z (S.nx * i + k) = if i = m then Spec.affine (sysAt S m).A (sysAt S m).B (sysAt S m).c x u k else 0) ∧
    IneqHold (domAt S m).A (domAt S m).b (pair S.nx x u) := by
  obtain ⟨h1, h2, h3, h4, h5, -⟩ := hs
  refine ⟨fun i hi k hk => ?_, fun k hk => ?_⟩
  · split_ifs with him
    · subst him
      have a := h3 i hi k hk
      have b := h4 i hi k hk
      rw [sum_erase_delta hm (fun j => bm al i j k) d hd, if_pos rfl] at a
      rw [sum_erase_delta hm (fun j => bm be i j k) d hd, if_pos rfl] at b
      linarith
    · have a := h1 i hi k hk
      have b := h2 i hi k hk
      rw [hd i hi, if_neg him, mul_zero] at a b
      linarith
  · have := h5 m hm k hk
    rw [sum_erase_delta hm (fun j => bm ga m j k) d hd, if_pos rfl] at this
    linarith

theorem affine_congr' {A B : Mat ℝ} {c : Vec ℝ} {x x' u u' : ℕ → ℝ} (k : ℕ) (hx : ∀ j < A.nc, x j = x' j) (hu : ∀ j < B.nc, u j = u' j) :
    Spec.affine A B c x u k = Spec.affine A B c x' u' k := by
  unfold Spec.affine
  rw [Finset.sum_congr rfl fun j hj => by rw [hx j (mem_range.1 hj)], Finset.sum_congr (s₁ := range B.nc) rfl fun j hj => by rw [hu j (mem_range.1 hj)]]

theorem pair_congr {nx nu : ℕ} {x x' u u' : ℕ → ℝ} (hx : ∀ j < nx, x j = x' j) (hu : ∀ j < nu, u j = u' j) : ∀ j < nx + nu, pair nx x u j = pair nx x' u' j := by
  intro j hj
  unfold pair
  split_ifs with h
  · exact hx j h
  · exact hu _ (by omega)

theorem ineq_congr {A : Mat ℝ} {b : Vec ℝ} {n : ℕ} (hA : A.nc = n) {x y : ℕ → ℝ} (h : ∀ j < n, x j = y j) : IneqHold A b x ↔ IneqHold A b y :=
  forall_congr' fun i => forall_congr' fun _ => by rw [rowVal_congr' i fun j hj => h j (hA ▸ hj)]

theorem eq_congr {C : Mat ℝ} {d : Vec ℝ} {n : ℕ} (hC : C.nc = n) {x y : ℕ → ℝ} (h : ∀ j < n, x j = y j) : EqHold C d x ↔ EqHold C d y :=
  forall_congr' fun i => forall_congr' fun _ => by rw [rowVal_congr' i fun j hj => h j (hC ▸ hj)]

theorem lqCost_congr {nx nu : ℕ} {Q R P : Mat ℝ} (hQ : Q.nr = nx ∧ Q.nc = nx) (hR : R.nr = nu ∧ R.nc = nu) (hP : P.nr = nx ∧ P.nc = nx) {N : ℕ}
    {x x' u u' : ℕ → ℕ → ℝ} (hx : ∀ t ≤ N, ∀ k < nx, x t k = x' t k) (hu : ∀ t < N, ∀ k < nu, u t k = u' t k) :
    lqCost Q R P x u N = lqCost Q R P x' u' N := by
  unfold lqCost
  rw [quad_congr hP.1 hP.2 (hx N le_rfl), Finset.sum_congr rfl fun t ht => by
    rw [quad_congr hQ.1 hQ.2 (hx t (mem_range.1 ht).le), quad_congr hR.1 hR.2 (hu t (mem_range.1 ht))]]

theorem block_sum {nx s t k : ℕ} {z : ℕ → ℝ} {m : ℕ} (hm : m < s) {v : ℝ}
    (h : ∀ i < s, z (nx * s * t + (nx * i + k)) = if i = m then v else 0) (x0 : ℕ → ℝ) : zState nx s x0 z (t + 1) k = v := by
  show ∑ i ∈ range s, z (nx * s * t + (nx * i + k)) = v
  rw [Finset.sum_congr rfl fun i hi => h i (mem_range.1 hi), Finset.sum_ite_eq', if_pos (mem_range.2 hm)]

/-- trajectories with the same inputs -/
theorem hyb_x_congr {S : PWA} (h : PwaShape S) {N : ℕ} {Q R P : Mat ℝ} {X_N : Poly} {x0 : ℕ → ℝ} {m m' : ℕ → ℕ} {u u' : ℕ → ℕ → ℝ}
    (hm : ∀ t < N, m t < S.nm) (hmm : ∀ t < N, m t = m' t) (hu : ∀ t < N, ∀ k < S.nu, u t k = u' t k) :
    ∀ t ≤ N, (hyb S N Q R P X_N).x x0 m u t = (hyb S N Q R P X_N).x x0 m' u' t := by
  intro t
  induction t with
  | zero => intro _; rfl
  | succ t ih =>
    intro ht
    funext k
    show Spec.affine (sysAt S (m t)).A (sysAt S (m t)).B (sysAt S (m t)).c ((hyb S N Q R P X_N).x x0 m u t) (u t) k
      = Spec.affine (sysAt S (m' t)).A (sysAt S (m' t)).B (sysAt S (m' t)).c ((hyb S N Q R P X_N).x x0 m' u' t) (u' t) k
    rw [ih (by omega), ← hmm t (by omega)]
    have hT := (h.sys (sysAt S (m t)) (getD_mem _ (by rw [h.lenS]; exact hm t (by omega)))).1
    exact affine_congr' k (fun j _ => rfl) fun j hj => hu t (by omega) j (by rw [hT.2.2.2.1] at hj; exact hj)

theorem hyb_ineq_congr {S : PWA} {N : ℕ} {Q R P : Mat ℝ} {X_N : Poly} (h : HybArgs S N Q R P X_N) {x0 : ℕ → ℝ} {m m' : ℕ → ℕ} {u u' : ℕ → ℕ → ℝ}
    (hmm : ∀ t < N, m t = m' t) (hu : ∀ t < N, ∀ k < S.nu, u t k = u' t k) (hf : (hyb S N Q R P X_N).IneqFeas x0 m u) :
    (hyb S N Q R P X_N).IneqFeas x0 m' u' ∧ (hyb S N Q R P X_N).cost x0 m u = (hyb S N Q R P X_N).cost x0 m' u' := by
  obtain ⟨f1, f2, f3⟩ := hf
  have hx := hyb_x_congr (N := N) (Q := Q) (R := R) (P := P) (X_N := X_N) h.pwa (x0 := x0) f1 hmm hu
  refine ⟨⟨fun t ht => by rw [← hmm t ht]; exact f1 t ht, fun t ht => ?_, ?_⟩, ?_⟩
  · have hD := h.pwa.dom (domAt S (m t)) (getD_mem _ (by rw [h.pwa.lenD]; exact f1 t ht))
    have ht' : t < N := ht
    have e := hx t ht'.le
    show IneqHold (domAt S (m' t)).A (domAt S (m' t)).b (pair S.nx ((hyb S N Q R P X_N).x x0 m' u' t) (u' t))
    rw [← hmm t ht, ← e]
    exact (ineq_congr hD.1 (pair_congr (fun _ _ => rfl) (hu t ht))).1 (f2 t ht)
  · have := hx N le_rfl
    show IneqHold X_N.A X_N.b _
    rw [show (hyb S N Q R P X_N).x x0 m' u' (hyb S N Q R P X_N).N = _ from this.symm]
    exact f3
  · exact lqCost_congr ⟨h.Q.1, h.Q.2.1⟩ h.R ⟨h.P.1, h.P.2.1⟩ (fun t ht k _ => congrFun (hx t ht) k) hu

/-- soundness of the program -/
theorem miqp_sound {L : Lib} {S : PWA} {N : ℕ} {Q R P : Mat ℝ} {X_N : Poly} (h : HybArgs S N Q R P X_N) {c : HMPC}
    (hrun : HMPC.init L S N Q R P X_N = .ok c) {x u z d : ℕ → ℝ} (hd : Binary (S.nm * N) d)
    (hf : MiFeas c.mpmiqp.Au c.mpmiqp.Az c.mpmiqp.Ad c.mpmiqp.Ax c.mpmiqp.b u z d x) :
    ∃ m : ℕ → ℕ, (∀ t < N, m t < S.nm ∧ ∀ i < S.nm, d (S.nm * t + i) = if i = m t then 1 else 0) ∧
      (∀ t < N, ∀ i < S.nm, ∀ k < S.nx, z (S.nx * S.nm * t + (S.nx * i + k))
        = if i = m t then (hyb S N Q R P X_N).x x m (unflat S.nu u) (t + 1) k else 0) ∧
      (hyb S N Q R P X_N).IneqFeas x m (unflat S.nu u) ∧
      miCost c.mpmiqp.Huu c.mpmiqp.Hzz c.mpmiqp.Hzx c.mpmiqp.Hxx u z x = (hyb S N Q R P X_N).cost x m (unflat S.nu u) := by
  obtain ⟨-, -, -, -, hfeas, hcost⟩ := init_inv h hrun
  obtain ⟨hst, hX⟩ := (hfeas x u z d).1 hf
  have hex : ∀ t < N, ∃ m < S.nm, ∀ j < S.nm, unflat S.nm d t j = if j = m then 1 else 0 := fun t ht =>
    binary_one (fun i hi => hd _ (by have := blk_le (m := S.nm) ht; omega)) (hst t ht).2.2.2.2.2
  choose! m hm hmd using hex
  have hstep : ∀ t < N, ∀ i < S.nm, ∀ k < S.nx, z (S.nx * S.nm * t + (S.nx * i + k))
      = if i = m t then Spec.affine (sysAt S (m t)).A (sysAt S (m t)).B (sysAt S (m t)).c (zState S.nx S.nm x z t) (unflat S.nu u t) k else 0 :=
    fun t ht => (stage_sound (hst t ht) (hm t ht) (hmd t ht)).1
  have hx : ∀ t ≤ N, ∀ k < S.nx, zState S.nx S.nm x z t k = (hyb S N Q R P X_N).x x m (unflat S.nu u) t k := by
    intro t
    induction t with
    | zero => intro _ k _; rfl
    | succ t ih =>
      intro ht k hk
      rw [block_sum (hm t (by omega)) (fun i hi => hstep t (by omega) i hi k hk) x]
      have hT := (h.pwa.sys (sysAt S (m t)) (getD_mem _ (by rw [h.pwa.lenS]; exact hm t (by omega)))).1
      exact affine_congr' k (fun j hj => ih (by omega) j (by rw [hT.2.1] at hj; exact hj)) fun j _ => rfl
  refine ⟨m, fun t ht => ⟨hm t ht, hmd t ht⟩, fun t ht i hi k hk => ?_, ⟨hm, fun t ht => ?_, ?_⟩, ?_⟩
  · rw [hstep t ht i hi k hk]
    have hT := (h.pwa.sys (sysAt S (m t)) (getD_mem _ (by rw [h.pwa.lenS]; exact hm t ht))).1
    rw [affine_congr' k (fun j hj => hx t ht.le j (by rw [hT.2.1] at hj; exact hj)) fun j _ => rfl]
    rfl
  · have hD := h.pwa.dom (domAt S (m t)) (getD_mem _ (by rw [h.pwa.lenD]; exact hm t ht))
    exact (ineq_congr hD.1 (pair_congr (hx t (le_of_lt ht)) fun _ _ => rfl)).1 (stage_sound (hst t ht) (hm t ht) (hmd t ht)).2
  · exact (ineq_congr h.XN.1 (hx N le_rfl)).1 hX
  · rw [hcost]
    exact lqCost_congr ⟨h.Q.1, h.Q.2.1⟩ h.R ⟨h.P.1, h.P.2.1⟩ hx fun _ _ _ _ => rfl

/-- the constants are bounds of the dynamics and of the constraints over the domains -/
def ValidBigM (S : PWA) (al be ga : List (List (Mat ℝ))) : Prop :=
  ∀ i < S.nm, ∀ j < S.nm, ∀ x u, InPoly (domAt S j).A (domAt S j).b (domAt S j).C (domAt S j).d (pair S.nx x u) →
    (∀ k < S.nx, bm al i j k ≤ Spec.affine (sysAt S i).A (sysAt S i).B (sysAt S i).c x u k ∧
      Spec.affine (sysAt S i).A (sysAt S i).B (sysAt S i).c x u k ≤ bm be i j k) ∧
    ∀ k < (domAt S i).A.nr, rowVal (domAt S i).A k (pair S.nx x u) - (domAt S i).b.e k ≤ bm ga i j k

theorem stage_complete {S : PWA} {al be ga : List (List (Mat ℝ))} (hv : ValidBigM S al be ga) {x u z d : ℕ → ℝ} {m : ℕ} (hm : m < S.nm)
    (hd : ∀ j < S.nm, d j = if j = m then 1 else 0)
    (hz : ∀ i < S.nm, ∀ k < S.nx, z (S.nx * i + k) = if i = m then Spec.affine (sysAt S m).A (sysAt S m).B (sysAt S m).c x u k else 0)
    (hin : InPoly (domAt S m).A (domAt S m).b (domAt S m).C (domAt S m).d (pair S.nx x u)) : StageRows S al be ga x u z d := by
  refine ⟨fun i hi k hk => ?_, fun i hi k hk => ?_, fun i hi k hk => ?_, fun i hi k hk => ?_, fun i hi k hk => ?_, ?_⟩
  · rw [hz i hi k hk, hd i hi]
    split_ifs with h
    · subst h
      rw [mul_one]
      exact ((hv i hi i hi x u hin).1 k hk).1
    · rw [mul_zero]
  · rw [hz i hi k hk, hd i hi]
    split_ifs with h
    · subst h
      rw [mul_one]
      exact ((hv i hi i hi x u hin).1 k hk).2
    · rw [mul_zero]
  · rw [sum_erase_delta hm (fun j => bm al i j k) d hd, hz i hi k hk]
    split_ifs with h
    · subst h
      rw [sub_self]
    · rw [sub_zero]
      exact ((hv i hi m hm x u hin).1 k hk).1
  · rw [sum_erase_delta hm (fun j => bm be i j k) d hd, hz i hi k hk]
    split_ifs with h
    · subst h
      rw [sub_self]
    · rw [sub_zero]
      exact ((hv i hi m hm x u hin).1 k hk).2
  · rw [sum_erase_delta hm (fun j => bm ga i j k) d hd]
    split_ifs with h
    · subst h
      rw [add_zero]
      exact hin.1 k hk
    · have := (hv i hi m hm x u hin).2 k hk
      linarith
  · rw [Finset.sum_congr rfl fun j hj => hd j (mem_range.1 hj), Finset.sum_ite_eq', if_pos (mem_range.2 hm)]

/-- completeness of the program -/
theorem miqp_complete {L : Lib} {S : PWA} {N : ℕ} {Q R P : Mat ℝ} {X_N : Poly} (h : HybArgs S N Q R P X_N) {c : HMPC}
    (hrun : HMPC.init L S N Q R P X_N = .ok c) (hv : ValidBigM S c.alpha c.beta c.gamma) {x : ℕ → ℝ} {m : ℕ → ℕ} {v : ℕ → ℝ}
    (hf : (hyb S N Q R P X_N).IneqFeas x m (unflat S.nu v))
    (he : ∀ t < N, EqHold (domAt S (m t)).C (domAt S (m t)).d (pair S.nx ((hyb S N Q R P X_N).x x m (unflat S.nu v) t) (unflat S.nu v t)))
    (hC : ∀ i < S.nm, (domAt S i).C.nc = S.nx + S.nu) :
    ∃ z d : ℕ → ℝ, Binary (S.nm * N) d ∧ MiFeas c.mpmiqp.Au c.mpmiqp.Az c.mpmiqp.Ad c.mpmiqp.Ax c.mpmiqp.b v z d x ∧
      miCost c.mpmiqp.Huu c.mpmiqp.Hzz c.mpmiqp.Hzx c.mpmiqp.Hxx v z x = (hyb S N Q R P X_N).cost x m (unflat S.nu v) := by
  obtain ⟨-, -, -, -, hfeas, hcost⟩ := init_inv h hrun
  obtain ⟨f1, f2, f3⟩ := hf
  replace f1 : ∀ t < N, m t < S.nm := f1
  set p := hyb S N Q R P X_N with hp
  set z := flat (S.nx * S.nm) (fun t => flat S.nx (fun i k => if i = m t then p.x x m (unflat S.nu v) (t + 1) k else 0)) with hz
  set d := flat S.nm (fun t i => if i = m t then (1 : ℝ) else 0) with hd
  have zval : ∀ t, ∀ i < S.nm, ∀ k < S.nx, z (S.nx * S.nm * t + (S.nx * i + k)) = if i = m t then p.x x m (unflat S.nu v) (t + 1) k else 0 := by
    intro t i hi k hk
    have h1 := unflat_flat (nu := S.nx * S.nm) (fun t => flat S.nx (fun i k => if i = m t then p.x x m (unflat S.nu v) (t + 1) k else 0)) t
      (s := S.nx * i + k) (by have := blk_le (m := S.nx) hi; omega)
    have h2 := unflat_flat (nu := S.nx) (fun i k => if i = m t then p.x x m (unflat S.nu v) (t + 1) k else 0) i (s := k) hk
    exact h1.trans h2
  have dval : ∀ t, ∀ i < S.nm, d (S.nm * t + i) = if i = m t then 1 else 0 := fun t i hi =>
    unflat_flat (nu := S.nm) (fun t i => if i = m t then (1 : ℝ) else 0) t (s := i) hi
  have hx : ∀ t ≤ N, ∀ k < S.nx, zState S.nx S.nm x z t k = p.x x m (unflat S.nu v) t k := by
    intro t ht k hk
    cases t with
    | zero => rfl
    | succ t => exact block_sum (f1 t (Nat.lt_of_succ_le ht)) (fun i hi => zval t i hi k hk) x
  refine ⟨z, d, fun r hr => ?_, (hfeas x v z d).2 ⟨fun t ht => ?_, ?_⟩, ?_⟩
  · simp only [hd, flat]
    split_ifs
    · exact Or.inr rfl
    · exact Or.inl rfl
  · have hT := (h.pwa.sys (sysAt S (m t)) (getD_mem _ (by rw [h.pwa.lenS]; exact f1 t ht))).1
    have hD := h.pwa.dom (domAt S (m t)) (getD_mem _ (by rw [h.pwa.lenD]; exact f1 t ht))
    have hpc := pair_congr (nx := S.nx) (nu := S.nu) (hx t ht.le) (u := unflat S.nu v t) (u' := unflat S.nu v t) fun _ _ => rfl
    refine stage_complete hv (f1 t ht) (dval t) (fun i hi k hk => ?_) ⟨(ineq_congr hD.1 hpc).2 (f2 t ht), (eq_congr (hC _ (f1 t ht)) hpc).2 (he t ht)⟩
    show z (S.nx * S.nm * t + (S.nx * i + k)) = _
    rw [zval t i hi k hk]
    split_ifs
    · show Spec.affine (sysAt S (m t)).A (sysAt S (m t)).B (sysAt S (m t)).c (p.x x m (unflat S.nu v) t) (unflat S.nu v t) k = _
      exact affine_congr' k (fun j hj => (hx t ht.le j (by rw [hT.2.1] at hj; exact hj)).symm) fun j _ => rfl
    · rfl
  · exact (ineq_congr h.XN.1 (hx N le_rfl)).2 f3
  · rw [hcost]
    exact lqCost_congr ⟨h.Q.1, h.Q.2.1⟩ h.R ⟨h.P.1, h.P.2.1⟩ hx fun _ _ _ _ => rfl

end Control
end Verif
