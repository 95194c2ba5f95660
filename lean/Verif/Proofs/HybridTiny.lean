import Verif.Proofs.Entries

/- The entries of the mixed-integer program of the hybrid controller are those of the data and of the big-M constants. -/
namespace Verif
namespace Control
open Finset Spec Dyn

variable {p : ℝ → Prop}

/-- all the entries of the data of the controller -/
structure AllData (p : ℝ → Prop) (S : PWA) (Q R P : Mat ℝ) (X_N : Poly) : Prop where
  sys : ∀ T ∈ S.affine_systems, AllM p T.A ∧ AllM p T.B ∧ AllV p T.c
  dom : ∀ D ∈ S.domains, AllM p D.A ∧ AllV p D.b
  Q : AllM p Q
  R : AllM p R
  P : AllM p P
  XN : AllM p X_N.A ∧ AllV p X_N.b

theorem all_ineqXU (h0 : p 0) (hn : ∀ a, p a → p (-a)) {nxs n : ℕ} {M F : List (Mat ℝ)} (hM : ∀ A ∈ M, AllM p A) (hF : ∀ A ∈ F, AllM p A)
    {E : Mat ℝ} (h : ineqXU nxs n M F = .ok E) : AllM p E := by
  unfold ineqXU at h
  obtain ⟨m1, k1, h⟩ := Py.bind_eq_ok h
  obtain ⟨m2, k2, h⟩ := Py.bind_eq_ok h
  obtain ⟨f, k3, h⟩ := Py.bind_eq_ok h
  refine all_vstack h fun A hA => ?_
  simp only [List.mem_cons, List.not_mem_nil, or_false] at hA
  rcases hA with rfl | rfl | rfl | rfl | rfl | rfl
  · exact all_zeros h0 _ _
  · exact all_zeros h0 _ _
  · refine all_vstack k1 fun B hB => ?_
    obtain ⟨C, hC, rfl⟩ := List.mem_map.1 hB
    exact all_neg hn (hM C hC)
  · exact all_vstack k2 hM
  · exact all_vstack k3 hF
  · exact all_zeros h0 _ _

theorem all_build (h0 : p 0) (h1 : p 1) (hn : ∀ a, p a → p (-a)) {S : PWA} {Q R P : Mat ℝ} {X_N : Poly} (hd : AllData p S Q R P X_N)
    {al be ga : List (List (Mat ℝ))} (ha : ∀ r ∈ al, ∀ A ∈ r, AllM p A) (hb : ∀ r ∈ be, ∀ A ∈ r, AllM p A) (hg : ∀ r ∈ ga, ∀ A ∈ r, AllM p A)
    {E : Ineqs} (h : build_inequalities S al be ga = .ok E) : AllM p E.x ∧ AllM p E.u ∧ AllM p E.z ∧ AllM p E.d ∧ AllV p E.h := by
  unfold build_inequalities at h
  obtain ⟨x, k1, h⟩ := Py.bind_eq_ok h
  obtain ⟨u, k2, h⟩ := Py.bind_eq_ok h
  obtain ⟨z, k3, h⟩ := Py.bind_eq_ok h
  obtain ⟨d, k4, h⟩ := Py.bind_eq_ok h
  obtain ⟨w, k5, h⟩ := Py.bind_eq_ok h
  cases h
  refine ⟨?_, ?_, ?_, ?_, ?_⟩
  · refine all_ineqXU h0 hn (fun A hA => ?_) (fun A hA => ?_) k1
    · obtain ⟨T, hT, rfl⟩ := List.mem_map.1 hA
      exact (hd.sys T hT).1
    · obtain ⟨D, hD, rfl⟩ := List.mem_map.1 hA
      exact all_colsTo (hd.dom D hD).1 _
  · refine all_ineqXU h0 hn (fun A hA => ?_) (fun A hA => ?_) k2
    · obtain ⟨T, hT, rfl⟩ := List.mem_map.1 hA
      exact (hd.sys T hT).2.1
    · obtain ⟨D, hD, rfl⟩ := List.mem_map.1 hA
      exact all_colsFrom (hd.dom D hD).1 _
  · unfold ineqZ at k3
    have i1 : AllM p (np.block_diag (List.replicate S.nm (Mat.eye S.nx))) := all_block_diag h0 fun A hA => by
      rw [List.eq_of_mem_replicate hA]
      exact all_eye h0 h1 _
    have i2 : AllM p (np.block_diag (List.replicate S.nm (Mat.eye S.nx : Mat ℝ).neg)) := all_block_diag h0 fun A hA => by
      rw [List.eq_of_mem_replicate hA]
      exact all_neg hn (all_eye h0 h1 _)
    refine all_vstack k3 fun A hA => ?_
    simp only [List.mem_cons, List.not_mem_nil, or_false] at hA
    rcases hA with rfl | rfl | rfl | rfl | rfl | rfl
    · exact i2
    · exact i1
    · exact i1
    · exact i2
    · exact all_zeros h0 _ _
    · exact all_zeros h0 _ _
  · unfold ineqD at k4
    obtain ⟨a, e1, k4⟩ := Py.bind_eq_ok k4
    obtain ⟨b, e2, k4⟩ := Py.bind_eq_ok k4
    obtain ⟨Ma, e3, k4⟩ := Py.bind_eq_ok k4
    obtain ⟨Mb, e4, k4⟩ := Py.bind_eq_ok k4
    obtain ⟨Mg, e5, k4⟩ := Py.bind_eq_ok k4
    obtain ⟨o, e6, k4⟩ := Py.bind_eq_ok k4
    refine all_vstack k4 fun A hA => ?_
    simp only [List.mem_cons, List.not_mem_nil, or_false] at hA
    rcases hA with rfl | rfl | rfl | rfl | rfl | rfl
    · exact all_block_diag h0 (all_diagonal ha e1)
    · exact all_neg hn (all_block_diag h0 (all_diagonal hb e2))
    · exact all_bigM h0 ha e3
    · exact all_neg hn (all_bigM h0 hb e4)
    · exact all_neg hn (all_bigM h0 hg e5)
    · refine all_vstack e6 fun B hB => ?_
      simp only [List.mem_cons, List.not_mem_nil, or_false] at hB
      rcases hB with rfl | rfl
      · exact all_ones h1 _ _
      · exact all_neg hn (all_ones h1 _ _)
  · unfold ineq0 at k5
    obtain ⟨c1, e1, k5⟩ := Py.bind_eq_ok k5
    obtain ⟨c2, e2, k5⟩ := Py.bind_eq_ok k5
    obtain ⟨b1, e3, k5⟩ := Py.bind_eq_ok k5
    have hc : ∀ v ∈ S.affine_systems.map (·.c), AllV p v := fun v hv => by
      obtain ⟨T, hT, rfl⟩ := List.mem_map.1 hv
      exact (hd.sys T hT).2.2
    refine all_concatenate k5 fun v hv => ?_
    simp only [List.mem_cons, List.not_mem_nil, or_false] at hv
    rcases hv with rfl | rfl | rfl | rfl | rfl | rfl
    · exact all_zerosV h0 _
    · exact all_zerosV h0 _
    · exact all_concatenate e1 hc
    · refine all_concatenate e2 fun v hv => ?_
      obtain ⟨w, hw, rfl⟩ := List.mem_map.1 hv
      exact all_negV hn (hc w hw)
    · refine all_concatenate e3 fun v hv => ?_
      obtain ⟨D, hD, rfl⟩ := List.mem_map.1 hv
      exact (hd.dom D hD).2
    · intro i hi
      have hi : i < 2 := hi
      interval_cases i
      · exact h1
      · exact hn 1 h1

/-- the residuals `b - A x` of the inequalities -/
def AllR (p : ℝ → Prop) (A : Mat ℝ) (b : Vec ℝ) (x : ℕ → ℝ) : Prop := ∀ i < A.nr, p (b.e i - rowVal A i x)

theorem allR_stack {x : ℕ → ℝ} {n : ℕ} : ∀ {l : List (Mat ℝ × Vec ℝ)} {M : Mat ℝ}, np.vstack (l.map (·.1)) = .ok M →
    (∀ q ∈ l, q.1.nc = n ∧ q.2.n = q.1.nr ∧ AllR p q.1 q.2 x) → M.nc = n ∧ (Vec.concat (l.map (·.2))).n = M.nr ∧ AllR p M (Vec.concat (l.map (·.2))) x
  | [], _, h, _ => by cases h
  | [q], _, h, hl => by cases h; exact hl q (by simp)
  | q :: q' :: l, M, h, hl => by
    obtain ⟨C, h1, h2⟩ := Py.bind_eq_ok (show (np.vstack ((q' :: l).map (·.1)) >>= fun C => np.vstack2 q.1 C) = .ok M from h)
    obtain ⟨i1, i2, i3⟩ := allR_stack h1 fun D hD => hl D (by simp at hD ⊢; tauto)
    obtain ⟨j1, j2, j3⟩ := hl q (by simp)
    unfold np.vstack2 at h2
    split_ifs at h2 with hc
    cases h2
    refine ⟨j1, ?_, ?_⟩
    · show q.2.n + (Vec.concat ((q' :: l).map (·.2))).n = q.1.nr + C.nr
      rw [i2, j2]
    · refine forall_lt_add.2 ⟨fun i hi => ?_, fun i hi => ?_⟩
      · rw [rowVal_vapp_lt hi]
        show p ((q.2.append (Vec.concat ((q' :: l).map (·.2)))).e i - _)
        rw [Vec.append_e_lt _ _ (by rw [j2]; exact hi)]
        exact j3 i hi
      · rw [rowVal_vapp_add hc]
        show p ((q.2.append (Vec.concat ((q' :: l).map (·.2)))).e _ - _)
        rw [← j2, Vec.append_e_add]
        exact i3 i hi

/-- the residuals of the inequalities of the first stage -/
theorem allR_build (h0 : p 0) (h1 : p 1) (hn : ∀ a, p a → p (-a)) {S : PWA} (hS : PwaShape S) {al be ga : List (List (Mat ℝ))} {x : ℕ → ℝ}
    (hs : ∀ T ∈ S.affine_systems, ∀ k < S.nx, p (T.c.e k + rowVal T.A k x))
    (hd : ∀ D ∈ S.domains, ∀ k < D.A.nr, p (D.b.e k - rowVal (D.A.colsTo S.nx) k x))
    {E : Ineqs} (h : build_inequalities S al be ga = .ok E) : AllR p E.x E.h x := by
  unfold build_inequalities at h
  obtain ⟨Ex, k1, h⟩ := Py.bind_eq_ok h
  obtain ⟨u, k2, h⟩ := Py.bind_eq_ok h
  obtain ⟨z, k3, h⟩ := Py.bind_eq_ok h
  obtain ⟨d, k4, h⟩ := Py.bind_eq_ok h
  obtain ⟨w, k5, h⟩ := Py.bind_eq_ok h
  cases h
  show AllR p Ex w x
  unfold ineqXU at k1
  obtain ⟨m1, a1, k1⟩ := Py.bind_eq_ok k1
  obtain ⟨m2, a2, k1⟩ := Py.bind_eq_ok k1
  obtain ⟨f, a3, k1⟩ := Py.bind_eq_ok k1
  unfold ineq0 at k5
  obtain ⟨c1, b1, k5⟩ := Py.bind_eq_ok k5
  obtain ⟨c2, b2, k5⟩ := Py.bind_eq_ok k5
  obtain ⟨g, b3, k5⟩ := Py.bind_eq_ok k5
  unfold np.concatenate at b1 b2 b3 k5
  split_ifs at b1 b2 b3 k5
  cases b1
  cases b2
  cases b3
  cases k5
  have e1 := allR_stack (p := p) (x := x) (n := S.nx) (l := S.affine_systems.map fun T => (T.A.neg, T.c)) (M := m1)
    (by rw [← a1, List.map_map, List.map_map]; rfl) (fun q hq => by
      obtain ⟨T, hT, rfl⟩ := List.mem_map.1 hq
      obtain ⟨g1, g2, g3, g4, g5⟩ := (hS.sys T hT).1
      refine ⟨g2, g5.trans g1.symm, fun k hk => ?_⟩
      show p (T.c.e k - rowVal T.A.neg k x)
      rw [rowVal_neg', sub_neg_eq_add]
      exact hs T hT k (by rw [← g1]; exact hk))
  have e2 := allR_stack (p := p) (x := x) (n := S.nx) (l := S.affine_systems.map fun T => (T.A, T.c.neg)) (M := m2)
    (by rw [← a2, List.map_map]; rfl) (fun q hq => by
      obtain ⟨T, hT, rfl⟩ := List.mem_map.1 hq
      obtain ⟨g1, g2, g3, g4, g5⟩ := (hS.sys T hT).1
      refine ⟨g2, g5.trans g1.symm, fun k hk => ?_⟩
      show p (-T.c.e k - rowVal T.A k x)
      rw [show -T.c.e k - rowVal T.A k x = -(T.c.e k + rowVal T.A k x) by ring]
      exact hn _ (hs T hT k (by rw [← g1]; exact hk)))
  have e3 := allR_stack (p := p) (x := x) (n := S.nx) (l := S.domains.map fun D => (D.A.colsTo S.nx, D.b)) (M := f)
    (by rw [← a3, List.map_map]; rfl) (fun q hq => by
      obtain ⟨D, hD, rfl⟩ := List.mem_map.1 hq
      refine ⟨?_, (hS.dom D hD).2, fun k hk => hd D hD k hk⟩
      show min S.nx D.A.nc = S.nx
      rw [(hS.dom D hD).1]
      omega)
  rw [List.map_map] at e1 e2 e3
  have hz : ∀ m : ℕ, AllR p (Mat.zeros m S.nx) (Vec.zeros m) x := fun m i hi => by
    rw [rowVal_zeros, sub_zero]
    exact h0
  refine (allR_stack (p := p) (x := x) (n := S.nx) (l := [(Mat.zeros (S.nx * S.nm) S.nx, Vec.zeros (S.nx * S.nm)), (Mat.zeros (S.nx * S.nm) S.nx, Vec.zeros (S.nx * S.nm)),
    (m1, Vec.concat (S.affine_systems.map (·.c))), (m2, Vec.concat ((S.affine_systems.map (·.c)).map Vec.neg)), (f, Vec.concat (S.domains.map (·.b))),
    (Mat.zeros 2 S.nx, Vec.ofList [1, -1])]) k1 ?_).2.2
  intro q hq
  simp only [List.mem_cons, List.not_mem_nil, or_false] at hq
  rcases hq with rfl | rfl | rfl | rfl | rfl | rfl
  · exact ⟨rfl, rfl, hz _⟩
  · exact ⟨rfl, rfl, hz _⟩
  · exact e1
  · refine (show (S.affine_systems.map (·.c)).map Vec.neg = S.affine_systems.map _ from List.map_map) ▸ e2
  · exact e3
  · refine ⟨rfl, rfl, fun i hi => ?_⟩
    rw [rowVal_zeros, sub_zero]
    have hi : i < 2 := hi
    interval_cases i
    · exact h1
    · exact hn 1 h1

/-- the unit vector -/
def unit (c : ℕ) : ℕ → ℝ := fun i => if i = c then 1 else 0

theorem rowVal_unit {A : Mat ℝ} {c : ℕ} (hc : c < A.nc) (r : ℕ) : rowVal A r (unit c) = A.e r c := by
  unfold rowVal unit
  simp [hc]

theorem rowVal_zero' (A : Mat ℝ) (r : ℕ) : rowVal A r (fun _ => 0) = 0 := by simp [rowVal]

theorem bil_unit {A : Mat ℝ} {c d : ℕ} (hc : c < A.nr) (hd : d < A.nc) : bil A (unit c) (unit d) = A.e c d := by
  unfold bil
  simp only [rowVal_unit hd]
  simp [unit, hc]

theorem blk_inj {n i i' r r' : ℕ} (hr : r < n) (hr' : r' < n) (h : n * i + r = n * i' + r') : i = i' ∧ r = r' := by
  have : i = i' := (blk_iff hr).1 ⟨by omega, by omega⟩
  subst this
  exact ⟨rfl, by omega⟩

/-- the states of a unit vector -/
theorem zState_unit {nx s t c : ℕ} (hc : c < nx * s) (τ k : ℕ) (hk : k < nx) :
    zState nx s (fun _ => 0) (unit (nx * s * t + c)) τ k = if τ = t + 1 ∧ k = c % nx then 1 else 0 := by
  cases τ with
  | zero => simp [zState]
  | succ τ =>
    show ∑ i ∈ range s, unit (nx * s * t + c) (nx * s * τ + (nx * i + k)) = _
    have hpos : 0 < nx := by omega
    have hdiv : c / nx < s := Nat.div_lt_of_lt_mul hc
    have key : ∀ i < s, (nx * s * τ + (nx * i + k) = nx * s * t + c ↔ (τ = t ∧ k = c % nx) ∧ i = c / nx) := fun i hi => by
      have hb := blk_le (m := nx) hi
      have hc' := Nat.div_add_mod c nx
      have hm := Nat.mod_lt c hpos
      constructor
      · intro h
        obtain ⟨e1, e2⟩ := blk_inj (by omega) hc h
        rw [← hc'] at e2
        have e3 := blk_inj hk hm e2
        exact ⟨⟨e1, e3.2⟩, e3.1⟩
      · rintro ⟨⟨rfl, rfl⟩, rfl⟩
        rw [hc']
    by_cases h : τ = t ∧ k = c % nx
    · rw [if_pos ⟨by rw [h.1], h.2⟩, Finset.sum_eq_single (c / nx)]
      · unfold unit
        rw [if_pos ((key _ hdiv).2 ⟨h, rfl⟩)]
      · intro i hi hne
        unfold unit
        rw [if_neg fun he => hne ((key i (mem_range.1 hi)).1 he).2]
      · intro hne
        exact absurd (mem_range.2 hdiv) hne
    · rw [if_neg fun he => h ⟨by omega, he.2⟩]
      refine Finset.sum_eq_zero fun i hi => ?_
      unfold unit
      rw [if_neg fun he => h ((key i (mem_range.1 hi)).1 he).1]

theorem rowVal_if {A : Mat ℝ} {c : ℕ} (hc : c < A.nc) (b : Prop) [Decidable b] (r : ℕ) :
    rowVal A r (fun k => if b ∧ k = c then 1 else 0) = if b then A.e r c else 0 := by
  by_cases h : b
  · simp only [h, true_and, if_true]
    exact rowVal_unit hc r
  · simp only [h, false_and, if_false]
    exact rowVal_zero' A r

theorem bil_if {A : Mat ℝ} {c d : ℕ} (hc : c < A.nr) (hd : d < A.nc) (b b' : Prop) [Decidable b] [Decidable b'] :
    bil A (fun k => if b ∧ k = c then 1 else 0) (fun k => if b' ∧ k = d then 1 else 0) = if b ∧ b' then A.e c d else 0 := by
  unfold bil
  simp only [rowVal_if hd]
  by_cases h : b <;> by_cases h' : b' <;> simp [h, h', hc]

/-- the costs of the mixed-integer program: the entries are those of the weights and there is no product of `z` and `x` -/
theorem cost_entries (h0 : p 0) {S : PWA} (h : PwaShape S) {al be ga : List (List (Mat ℝ))} {N : ℕ} (hN : 0 < N) {Q R P : Mat ℝ} {X_N : Poly}
    (hQ : Q.nr = S.nx ∧ Q.nc = S.nx) (hP : P.nr = S.nx ∧ P.nc = S.nx)
    (aQ : AllM p Q) (aR : AllM p R) (aP : AllM p P) {q : MpMIQP} (hq : condense_hybrid S N Q R P X_N al be ga = .ok q) :
    AllM p q.Huu ∧ AllM p q.Hzz ∧ ∀ x, ∀ i < q.Hzx.nr, rowVal q.Hzx i x = 0 := by
  unfold condense_hybrid at hq
  obtain ⟨E, -, hq⟩ := Py.bind_eq_ok hq
  obtain ⟨E', -, hq⟩ := Py.bind_eq_ok hq
  obtain ⟨A, B, g1, g2, g3, g4, g5, g6⟩ := condense_eq_ok (nx := S.nx) h.pos hN
  rw [g1, Py.ok_bind] at hq
  simp only at hq
  have ebd : np.block_diag (List.replicate N Q ++ [P]) = Mat.bdiag (List.replicate N Q ++ [P]) := if_neg (by simp)
  obtain ⟨q1, q2⟩ := bdiag_rep_shape hQ.1 hQ.2 hP.1 hP.2 N
  unfold assemble at hq
  simp only [ebd] at hq
  set Qb := Mat.bdiag (List.replicate N Q ++ [P]) with hQb
  have k1 : np.dotMM B.T Qb = .ok (B.T.mul Qb) := if_pos (by show B.nr = _; rw [g4, q1])
  have k2 : np.dotMM (B.T.mul Qb) B = .ok ((B.T.mul Qb).mul B) := if_pos (by show Qb.nc = _; rw [g4, q2])
  have k3 : np.dotMM (B.T.mul Qb) A = .ok ((B.T.mul Qb).mul A) := if_pos (by show Qb.nc = _; rw [g2, q2])
  rw [k1, Py.ok_bind, k2, Py.ok_bind, k3, Py.ok_bind] at hq
  obtain ⟨M1, -, hq⟩ := Py.bind_eq_ok hq
  obtain ⟨M2, -, hq⟩ := Py.bind_eq_ok hq
  obtain ⟨M3, -, hq⟩ := Py.bind_eq_ok hq
  obtain ⟨M4, -, hq⟩ := Py.bind_eq_ok hq
  obtain ⟨M5, -, hq⟩ := Py.bind_eq_ok hq
  cases hq
  have hB : ∀ z, ∀ t ≤ N, ∀ k < S.nx, rowVal B (S.nx * t + k) z = zState S.nx S.nm (fun _ => 0) z t k := fun z t ht k hk => by
    rw [← g6 (fun _ => 0) z t ht k hk, rowVal_zero', zero_add]
  have hA : ∀ x, ∀ t ≤ N, ∀ k < S.nx, rowVal A (S.nx * t + k) x = if t = 0 then x k else 0 := fun x t ht k hk => by
    have e := g6 x (fun _ => 0) t ht k hk
    rw [rowVal_zero', add_zero] at e
    rw [e]
    cases t with
    | zero => rfl
    | succ t => simp [zState]
  have hBu : ∀ t < N, ∀ c < S.nx * S.nm, ∀ τ ≤ N, ∀ k < S.nx, rowVal B (S.nx * τ + k) (unit (S.nx * S.nm * t + c))
      = if τ = t + 1 ∧ k = c % S.nx then 1 else 0 := fun t ht c hc τ hτ k hk => by
    rw [hB _ τ hτ k hk, zState_unit hc τ k hk]
  have hmod : ∀ c, c < S.nx * S.nm → c % S.nx < S.nx := fun c hc => Nat.mod_lt _ (Nat.pos_of_mul_pos_right (lt_of_le_of_lt (Nat.zero_le _) hc))
  refine ⟨?_, ?_, fun x => ?_⟩
  · exact all_block_diag h0 fun M hM => by rw [List.eq_of_mem_replicate hM]; exact aR
  · show ∀ i < B.nc, ∀ j < B.nc, p (((B.T.mul Qb).mul B).e i j)
    rw [g5]
    refine (forall_mul _).2 fun t ht c hc => (forall_mul _).2 fun t' ht' c' hc' => ?_
    have hb1 := blk_le (m := S.nx * S.nm) ht
    have hb2 := blk_le (m := S.nx * S.nm) ht'
    rw [← bil_unit (A := (B.T.mul Qb).mul B) (by show _ < B.nc; rw [g5]; omega) (by show _ < B.nc; rw [g5]; omega),
      bil_sandwich (by rw [g4, q1]) (by rw [q2, g4]), hQb, bil_bdiag_rep hQ.1 hQ.2 hP.1 hP.2 N]
    have s1 : ∀ τ ∈ range N, bil Q (fun k => rowVal B (S.nx * τ + k) (unit (S.nx * S.nm * t + c))) (fun k => rowVal B (S.nx * τ + k) (unit (S.nx * S.nm * t' + c')))
        = if τ = t + 1 ∧ τ = t' + 1 then Q.e (c % S.nx) (c' % S.nx) else 0 := fun τ hτ => by
      have hτ := (mem_range.1 hτ).le
      rw [bil_congr hQ.1 hQ.2 (fun k hk => hBu t ht c hc τ hτ k hk) (fun k hk => hBu t' ht' c' hc' τ hτ k hk)]
      exact bil_if (by rw [hQ.1]; exact hmod c hc) (by rw [hQ.2]; exact hmod c' hc') _ _
    have s2 : bil P (fun k => rowVal B (S.nx * N + k) (unit (S.nx * S.nm * t + c))) (fun k => rowVal B (S.nx * N + k) (unit (S.nx * S.nm * t' + c')))
        = if N = t + 1 ∧ N = t' + 1 then P.e (c % S.nx) (c' % S.nx) else 0 := by
      rw [bil_congr hP.1 hP.2 (fun k hk => hBu t ht c hc N le_rfl k hk) (fun k hk => hBu t' ht' c' hc' N le_rfl k hk)]
      exact bil_if (by rw [hP.1]; exact hmod c hc) (by rw [hP.2]; exact hmod c' hc') _ _
    rw [Finset.sum_congr rfl s1, s2]
    by_cases htt : t = t'
    · subst htt
      simp only [and_self]
      rw [Finset.sum_ite_eq']
      by_cases hl : t + 1 < N
      · rw [if_pos (mem_range.2 hl), if_neg (by omega), add_zero]
        exact aQ _ (by rw [hQ.1]; exact hmod c hc) _ (by rw [hQ.2]; exact hmod c' hc')
      · rw [if_neg (by simpa using hl), if_pos (by omega), zero_add]
        exact aP _ (by rw [hP.1]; exact hmod c hc) _ (by rw [hP.2]; exact hmod c' hc')
    · rw [Finset.sum_eq_zero fun τ _ => if_neg (by omega), if_neg (by omega), zero_add]
      exact h0
  · show ∀ i < B.nc, rowVal ((B.T.mul Qb).mul A) i x = 0
    rw [g5]
    refine (forall_mul _).2 fun t ht c hc => ?_
    have hb1 := blk_le (m := S.nx * S.nm) ht
    have e : rowVal ((B.T.mul Qb).mul A) (S.nx * S.nm * t + c) x = bil ((B.T.mul Qb).mul A) (unit (S.nx * S.nm * t + c)) x := by
      have : S.nx * S.nm * t + c < ((B.T.mul Qb).mul A).nr := by show _ < B.nc; rw [g5]; omega
      unfold bil
      rw [Finset.sum_eq_single (S.nx * S.nm * t + c)]
      · rw [show unit (S.nx * S.nm * t + c) (S.nx * S.nm * t + c) = 1 from if_pos rfl, one_mul]
      · intro i _ hi
        rw [show unit (S.nx * S.nm * t + c) i = 0 from if_neg hi, zero_mul]
      · intro hne
        exact absurd (mem_range.2 this) hne
    rw [e, bil_sandwich (by rw [g4, q1]) (by rw [q2, g2]), hQb, bil_bdiag_rep hQ.1 hQ.2 hP.1 hP.2 N]
    have z1 : ∀ (M : Mat ℝ), M.nr = S.nx → M.nc = S.nx → ∀ τ ≤ N, bil M (fun k => rowVal B (S.nx * τ + k) (unit (S.nx * S.nm * t + c))) (fun k => rowVal A (S.nx * τ + k) x) = 0 := by
      intro M m1 m2 τ hτ
      by_cases hz : τ = 0
      · rw [bil_congr m1 m2 (fun k hk => (hBu t ht c hc τ hτ k hk).trans (if_neg (by omega))) (fun k hk => rfl)]
        simp [bil]
      · rw [bil_congr m1 m2 (fun k hk => rfl) (fun k hk => (hA x τ hτ k hk).trans (if_neg hz))]
        simp [bil, rowVal]
    rw [Finset.sum_eq_zero fun τ hτ => z1 Q hQ.1 hQ.2 τ (mem_range.1 hτ).le, z1 P hP.1 hP.2 N le_rfl, add_zero]

/-- the constraints of the mixed-integer program: the entries are those of the data and of the constants -/
theorem constr_entries (h0 : p 0) (h1 : p 1) (hn : ∀ a, p a → p (-a)) {S : PWA} (h : PwaShape S) {al be ga : List (List (Mat ℝ))}
    (ba : IsBigM S.nm (List.replicate S.nm S.nx) al) (bb : IsBigM S.nm (List.replicate S.nm S.nx) be)
    (bg : IsBigM S.nm (S.domains.map fun D => D.A.nr) ga) {N : ℕ} (hN : 0 < N) {Q R P : Mat ℝ} {X_N : Poly}
    (hX : X_N.A.nc = S.nx ∧ X_N.b.n = X_N.A.nr) (hd : AllData p S Q R P X_N)
    (ha : ∀ r ∈ al, ∀ A ∈ r, AllM p A) (hb : ∀ r ∈ be, ∀ A ∈ r, AllM p A) (hg : ∀ r ∈ ga, ∀ A ∈ r, AllM p A)
    {q : MpMIQP} (hq : condense_hybrid S N Q R P X_N al be ga = .ok q) :
    AllM p q.Au ∧ AllM p q.Az ∧ AllM p q.Ad ∧ ∀ x : ℕ → ℝ, (∀ T ∈ S.affine_systems, ∀ k < S.nx, p (T.c.e k + rowVal T.A k x)) →
      (∀ D ∈ S.domains, ∀ k < D.A.nr, p (D.b.e k - rowVal (D.A.colsTo S.nx) k x)) → ∀ i < q.b.n, p (q.b.e i - rowVal q.Ax i x) := by
  obtain ⟨E, n, e1, e2, e3, e4, e5, e6, -⟩ := build_ok h rfl rfl ba bb bg
  obtain ⟨ax, au, az, ad, ah⟩ := all_build h0 h1 hn hd ha hb hg e1
  obtain ⟨A, B, g1, g2, g3, g4, g5, g6⟩ := condense_eq_ok (nx := S.nx) h.pos hN
  obtain ⟨U, u1, u2, u3, u4, u5⟩ := pad_ok (m := X_N.A.nr) hN e3.1 e3.2
  obtain ⟨Z, z1, z2, z3, z4, z5⟩ := pad_ok (m := X_N.A.nr) hN e4.1 e4.2
  obtain ⟨D, d1, d2, d3, d4, d5⟩ := pad_ok (m := X_N.A.nr) hN e5.1 e5.2
  obtain ⟨x1, x2, x3, x4⟩ := bdiag_rep_tail (B := X_N.A) (N := N) e2.1 e2.2
  obtain ⟨h1', h2', h3'⟩ := concat_rep_tail (b := X_N.b) (N := N) e6
  have ebd : np.block_diag (List.replicate N E.x ++ [X_N.A]) = Mat.bdiag (List.replicate N E.x ++ [X_N.A]) := if_neg (by simp)
  have ecc : np.concatenate (List.replicate N E.h ++ [X_N.b]) = .ok (Vec.concat (List.replicate N E.h ++ [X_N.b])) := if_neg (by simp)
  have eci : condense_inequalities N X_N E = .ok ⟨Mat.bdiag (List.replicate N E.x ++ [X_N.A]), U, Z, D, Vec.concat (List.replicate N E.h ++ [X_N.b])⟩ := by
    unfold condense_inequalities
    simp only
    rw [u1, Py.ok_bind, z1, Py.ok_bind, d1, Py.ok_bind, ecc, Py.ok_bind, ebd]
    rfl
  set X := Mat.bdiag (List.replicate N E.x ++ [X_N.A])
  set W := Vec.concat (List.replicate N E.h ++ [X_N.b])
  have xnc : X.nc = S.nx * (N + 1) := by rw [x2, hX.1]; ring
  unfold condense_hybrid at hq
  rw [e1, Py.ok_bind, eci, Py.ok_bind, g1, Py.ok_bind] at hq
  simp only at hq
  unfold assemble at hq
  simp only at hq
  obtain ⟨M1, -, hq⟩ := Py.bind_eq_ok hq
  obtain ⟨M2, -, hq⟩ := Py.bind_eq_ok hq
  obtain ⟨M3, -, hq⟩ := Py.bind_eq_ok hq
  obtain ⟨M4, -, hq⟩ := Py.bind_eq_ok hq
  obtain ⟨M5, -, hq⟩ := Py.bind_eq_ok hq
  have k6 : np.dotMM X B = .ok (X.mul B) := if_pos (by rw [xnc, g4])
  have k7 : np.addM Z (X.mul B) = .ok (Z.add (X.mul B)) := if_pos ⟨by rw [z2]; exact x1.symm, by rw [z3]; exact g5.symm⟩
  have k8 : np.dotMM X A = .ok (X.mul A) := if_pos (by rw [xnc, g2])
  rw [k6, Py.ok_bind, k7, Py.ok_bind, k8, Py.ok_bind] at hq
  cases hq
  have hpad : ∀ {M F : Mat ℝ}, np.vstack [np.block_diag (List.replicate N F), Mat.zeros X_N.A.nr (np.block_diag (List.replicate N F)).nc] = .ok M →
      AllM p F → AllM p M := fun hM hF => by
    refine all_vstack hM fun M' hM' => ?_
    simp only [List.mem_cons, List.not_mem_nil, or_false] at hM'
    rcases hM' with rfl | rfl
    · exact all_block_diag h0 fun G hG => by rw [List.eq_of_mem_replicate hG]; exact hF
    · exact all_zeros h0 _ _
  have hB : ∀ z, ∀ t ≤ N, ∀ k < S.nx, rowVal B (S.nx * t + k) z = zState S.nx S.nm (fun _ => 0) z t k := fun z t ht k hk => by
    rw [← g6 (fun _ => 0) z t ht k hk, rowVal_zero', zero_add]
  have hA : ∀ x, ∀ t ≤ N, ∀ k < S.nx, rowVal A (S.nx * t + k) x = if t = 0 then x k else 0 := fun x t ht k hk => by
    have e := g6 x (fun _ => 0) t ht k hk
    rw [rowVal_zero', add_zero] at e
    rw [e]
    cases t with
    | zero => rfl
    | succ t => simp [zState]
  refine ⟨hpad u1 au, ?_, hpad d1 ad, fun x hs hD => ?_⟩
  · show ∀ i < Z.nr, ∀ j < Z.nc, p ((Z.add (X.mul B)).e i j)
    rw [z2, z3]
    suffices hmain : ∀ i < n * N + X_N.A.nr, ∀ t < N, ∀ c < S.nx * S.nm, p ((Z.add (X.mul B)).e i (S.nx * S.nm * t + c)) from
      fun i hi => (forall_mul _).2 (hmain i hi)
    intro i hi t ht c hc
    revert i
    have hb1 := blk_le (m := S.nx * S.nm) ht
    have hmod : c % S.nx < S.nx := Nat.mod_lt _ (Nat.pos_of_mul_pos_right (lt_of_le_of_lt (Nat.zero_le _) hc))
    have hent : ∀ i, (Z.add (X.mul B)).e i (S.nx * S.nm * t + c) = rowVal Z i (unit (S.nx * S.nm * t + c)) + rowVal X i (fun k => rowVal B k (unit (S.nx * S.nm * t + c))) := fun i => by
      rw [← rowVal_mul (by rw [xnc, g4]), rowVal_unit (by rw [z3]; omega), rowVal_unit (by show _ < B.nc; rw [g5]; omega)]
      rfl
    have hBu : ∀ τ ≤ N, ∀ k < S.nx, rowVal B (S.nx * τ + k) (unit (S.nx * S.nm * t + c)) = if τ = t + 1 ∧ k = c % S.nx then 1 else 0 := fun τ hτ k hk => by
      rw [hB _ τ hτ k hk, zState_unit hc τ k hk]
    refine forall_lt_add.2 ⟨(forall_mul _).2 fun τ hτ k hk => ?_, fun k hk => ?_⟩
    · rw [hent, z4 τ hτ k hk, x3 τ hτ k hk, rowVal_congr' (A := E.x) k (fun j hj => hBu τ hτ.le j (by rw [← e2.2]; exact hj)), rowVal_if (by rw [e2.2]; exact hmod)]
      have hzu : ∀ j < S.nx * S.nm, unit (S.nx * S.nm * t + c) (S.nx * S.nm * τ + j) = if τ = t ∧ j = c then 1 else 0 := fun j hj => by
        unfold unit
        refine if_congr ⟨fun he => blk_inj hj hc he, ?_⟩ rfl rfl
        rintro ⟨rfl, rfl⟩
        rfl
      rw [rowVal_congr' (A := E.z) k (fun j hj => hzu j (by rw [← e4.2]; exact hj)), rowVal_if (by rw [e4.2]; exact hc)]
      by_cases c1 : τ = t
      · rw [if_pos c1, if_neg (by omega), add_zero]
        exact az k (by rw [e4.1]; exact hk) c (by rw [e4.2]; exact hc)
      · rw [if_neg c1, zero_add]
        split_ifs
        · exact ax k (by rw [e2.1]; exact hk) _ (by rw [e2.2]; exact hmod)
        · exact h0
    · rw [hent, z5 k hk, x4 k hk, rowVal_congr' (A := X_N.A) k (fun j hj => hBu N le_rfl j (by rw [← hX.1]; exact hj)), rowVal_if (by rw [hX.1]; exact hmod), zero_add]
      split_ifs
      · exact hd.XN.1 k hk _ (by rw [hX.1]; exact hmod)
      · exact h0
  · show ∀ i < W.n, p (W.e i - rowVal (X.mul A) i x)
    have hR := allR_build h0 h1 hn h hs hD e1
    rw [h1', hX.2]
    refine forall_lt_add.2 ⟨(forall_mul _).2 fun τ hτ k hk => ?_, fun k hk => ?_⟩
    · rw [h2' τ hτ k hk, rowVal_mul (by rw [xnc, g2]), x3 τ hτ k hk, rowVal_congr' (A := E.x) k (fun j hj => hA x τ hτ.le j (by rw [← e2.2]; exact hj))]
      by_cases c1 : τ = 0
      · simp only [c1, if_true]
        exact hR k (by rw [e2.1]; exact hk)
      · simp only [c1, if_false]
        rw [rowVal_zero', sub_zero]
        exact ah k (by rw [e6]; exact hk)
    · rw [h3' k (by rw [hX.2]; exact hk), rowVal_mul (by rw [xnc, g2]), x4 k hk, rowVal_congr' (A := X_N.A) k (fun j hj => hA x N le_rfl j (by rw [← hX.1]; exact hj))]
      simp only [show N ≠ 0 by omega, if_false]
      rw [rowVal_zero', sub_zero]
      exact hd.XN.2 k (by rw [hX.2]; exact hk)

end Control
end Verif
