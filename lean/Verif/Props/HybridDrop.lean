import Verif.Props.HybridLoopExamples
import Verif.Props.MiDrop

/- The hybrid controller at every state, tiny right hand sides included: C140 of properties.jsonl. -/
namespace Verif.Props
open Finset Spec Dyn Control

/-- the number of ones of a binary vector is a natural number -/
theorem binary_sum_nat {s : ℕ} {d : ℕ → ℝ} (hd : ∀ i < s, d i = 0 ∨ d i = 1) : ∃ n : ℕ, ∑ j ∈ range s, d j = n := by
  induction s with
  | zero => exact ⟨0, by simp⟩
  | succ s ih =>
    obtain ⟨n, hn⟩ := ih fun i hi => hd i (by omega)
    rw [sum_range_succ, hn]
    rcases hd s (by omega) with h | h
    · exact ⟨n, by rw [h, add_zero]⟩
    · exact ⟨n + 1, by rw [h]; push_cast; ring⟩

/-- a binary vector with a sum close to one has exactly one one -/
theorem binary_near_one {s : ℕ} {d : ℕ → ℝ} (hd : ∀ i < s, d i = 0 ∨ d i = 1) {ε : ℝ} (hε : ε < 1) (h : |∑ j ∈ range s, d j - 1| ≤ ε) :
    ∃ m < s, ∀ j < s, d j = if j = m then 1 else 0 := by
  refine binary_one hd ?_
  obtain ⟨n, hn⟩ := binary_sum_nat hd
  rw [hn] at h ⊢
  obtain ⟨h1, h2⟩ := abs_le.1 h
  have k1 : 0 < n := by
    have : (0 : ℝ) < n := by linarith
    exact_mod_cast this
  have k2 : n < 2 := by
    have : (n : ℝ) < 2 := by linarith
    exact_mod_cast this
  have : n = 1 := by omega
  rw [this, Nat.cast_one]

/-- the inequalities of a stage up to `ε`, in the mode `m`: the sum of the auxiliary states is the next state up to `nm ε` -/
theorem stage_near {S : PWA} {al be ga : List (List (Mat ℝ))} {ε : ℝ} {x u z d : ℕ → ℝ} (hs : StageSlack S al be ga ε x u z d) {m : ℕ} (hm : m < S.nm)
    (hd : ∀ j < S.nm, d j = if j = m then 1 else 0) :
    (∀ k < S.nx, |∑ i ∈ range S.nm, z (S.nx * i + k) - Spec.affine (sysAt S m).A (sysAt S m).B (sysAt S m).c x u k| ≤ S.nm * ε) ∧
      ∀ k < (domAt S m).A.nr, rowVal (domAt S m).A k (pair S.nx x u) ≤ (domAt S m).b.e k + ε := by
  obtain ⟨h1, h2, h3, h4, h5, -⟩ := hs
  refine ⟨fun k hk => ?_, fun k hk => ?_⟩
  · have e : Spec.affine (sysAt S m).A (sysAt S m).B (sysAt S m).c x u k
        = ∑ i ∈ range S.nm, if i = m then Spec.affine (sysAt S m).A (sysAt S m).B (sysAt S m).c x u k else 0 := by
      rw [Finset.sum_ite_eq', if_pos (mem_range.2 hm)]
    rw [e, ← Finset.sum_sub_distrib]
    refine (Finset.abs_sum_le_sum_abs _ _).trans ?_
    have : ∀ i ∈ range S.nm, |z (S.nx * i + k) - if i = m then Spec.affine (sysAt S m).A (sysAt S m).B (sysAt S m).c x u k else 0| ≤ ε := fun i hi => by
      have hi := mem_range.1 hi
      rw [abs_le]
      split_ifs with him
      · subst him
        have a := h3 i hi k hk
        have b := h4 i hi k hk
        rw [sum_erase_delta hm (fun j => bm al i j k) d hd, if_pos rfl] at a
        rw [sum_erase_delta hm (fun j => bm be i j k) d hd, if_pos rfl] at b
        constructor <;> linarith
      · have a := h1 i hi k hk
        have b := h2 i hi k hk
        rw [hd i hi, if_neg him, mul_zero] at a b
        constructor <;> linarith
    refine (Finset.sum_le_sum this).trans ?_
    rw [Finset.sum_const, card_range, nsmul_eq_mul]
  · have := h5 m hm k hk
    rw [sum_erase_delta hm (fun j => bm ga m j k) d hd, if_pos rfl] at this
    linarith

theorem quad_dropM {A : Mat ℝ} (h : NoTinyM 1e-9 A) (y : ℕ → ℝ) : quad (dropM 1e-9 A) y = quad A y := by
  refine Finset.sum_congr rfl fun i hi => Finset.sum_congr rfl fun j hj => ?_
  have : drop 1e-9 (A.e i j) = A.e i j := by
    rcases h i (mem_range.1 hi) j (mem_range.1 hj) with h | h
    · rw [h, drop_zero]
    · exact drop_of_gt h
  show _ * drop 1e-9 (A.e i j) * _ = _
  rw [this]

/-- an answer of a hybrid controller up to `ε`: as many inputs and modes as the horizon, the states start at `x0`, each state is the image of the
previous one in the listed mode up to `nm ε`, and the inequalities of the domains and of the terminal set hold up to `ε` -/
structure NearTraj (S : PWA) (N : ℕ) (X_N : Poly) (ε : ℝ) (x0 : Vec ℝ) (a : HMPC.Answer) : Prop where
  inputs : a.u.length = N ∧ ∀ v ∈ a.u, v.n = S.nu
  modes : a.modes.length = N ∧ ∀ t < N, a.modes.getD t 0 < S.nm
  states : a.x.length = N + 1 ∧ ∀ v ∈ a.x, v.n = S.nx
  start : a.x.getD 0 vec0 = x0
  step : ∀ t < N, ∀ k < S.nx, |(a.x.getD (t + 1) vec0).e k - Spec.affine (sysAt S (a.modes.getD t 0)).A (sysAt S (a.modes.getD t 0)).B
    (sysAt S (a.modes.getD t 0)).c (a.x.getD t vec0).e (inputsOf a.u t) k| ≤ S.nm * ε
  domain : ∀ t < N, ∀ k < (domAt S (a.modes.getD t 0)).A.nr,
    rowVal (domAt S (a.modes.getD t 0)).A k (pair S.nx (a.x.getD t vec0).e (inputsOf a.u t)) ≤ (domAt S (a.modes.getD t 0)).b.e k + ε
  terminal : ∀ k < X_N.A.nr, rowVal X_N.A k (a.x.getD N vec0).e ≤ X_N.b.e k + ε

/-- C140: if the coefficients of the variables in the program of the controller are not tiny, then `feedforward` raises at no state; what it answers is
a trajectory from the state up to `nm 1e-9`, in domains and terminal set up to `1e-9`, and the value is exactly the cost of the returned
states and inputs.  Nothing is asked of the state: the right hand sides `b - Ax x` can be tiny. -/
theorem C140 (L : Lib) (G : Gurobi) (hG : GurobiSpec G) (S : PWA) (N : ℕ) (Q R P : Mat ℝ) (X_N : Poly) (h : HybArgs S N Q R P X_N) (c : HMPC)
    (hrun : HMPC.init L S N Q R P X_N = .ok c) (tu : NoTinyM 1e-9 c.mpmiqp.Au) (tz : NoTinyM 1e-9 c.mpmiqp.Az) (td : NoTinyM 1e-9 c.mpmiqp.Ad)
    (x : Vec ℝ) (hx : x.n = S.nx) :
    ∃ o, c.feedforward G x = .ok o ∧ ∀ a, o = some a → NearTraj S N X_N 1e-9 x a ∧
      (NoTinyM 1e-9 c.mpmiqp.Huu → NoTinyM 1e-9 c.mpmiqp.Hzz → a.V = lqCost Q R P (fun t => (a.x.getD t vec0).e) (inputsOf a.u) N) := by
  obtain ⟨⟨cS, cN, -⟩, -, -, hsh, -, hcost⟩ := init_inv h hrun
  obtain ⟨s, s1, -, -, s4⟩ := C102 G hG _ _ _ _ c.mpmiqp hsh x hx
  have hff : c.feedforward G x = (c.mpmiqp.solve G x >>= fun sol => match sol.min with
      | none => return none
      | some V => match sol.u, sol.z, sol.d with
        | some u, some z, some d => do
          let a ← HMPC.unpack c.S c.N x u z d V
          return some a
        | _, _, _ => .error .typeError) := rfl
  cases hm : s.min with
  | none =>
    refine ⟨none, ?_, fun a ha => (by cases ha)⟩
    rw [hff, s1, Py.ok_bind]
    simp only [hm]
    rfl
  | some V =>
    obtain ⟨u, z, d, e1, e2, e3, n1, n2, n3, ho, hV, hrows⟩ := s4 V hm
    obtain ⟨k1, k2⟩ := init_slack h hrun 1e-9 x.e u.e z.e d.e (hrows tu tz td)
    have hex : ∀ t < N, ∃ m < S.nm, ∀ j < S.nm, unflat S.nm d.e t j = if j = m then 1 else 0 := fun t ht =>
      binary_near_one (fun i hi => ho.1.1 _ (by have := blk_le (m := S.nm) ht; omega)) (by norm_num) (k1 t ht).2.2.2.2.2
    choose! m hm1 hm2 using hex
    obtain ⟨a, a1, a2, a3, a4, a5, a6, a7, a8, a9, a10⟩ := HMPC.unpack_ok (S := S) (N := N) (x := x) (V := V) h.pwa.pos n1 n2 n3
      (fun t ht => ⟨hm1 t ht, hm2 t ht⟩)
    have hfa : c.feedforward G x = .ok (some a) := by
      rw [hff, s1, Py.ok_bind]
      simp only [hm, e1, e2, e3]
      rw [cS, cN, a1, Py.ok_bind]
      rfl
    have hst : ∀ t ≤ N, (a.x.getD t vec0).e = zState S.nx S.nm x.e z.e t := fun t ht => by
      cases t with
      | zero => rw [a9]; rfl
      | succ t => exact funext fun k => (a10 t ht).2 k
    refine ⟨some a, hfa, fun a' ha' => ?_⟩
    cases ha'
    refine ⟨⟨⟨a3, a4⟩, ⟨a6, fun t ht => by rw [a7 t ht]; exact hm1 t ht⟩, ⟨a8, fun v hv => ?_⟩, a9, fun t ht k hk => ?_, fun t ht k hk => ?_, fun k hk => ?_⟩, fun tuu tzz => ?_⟩
    · obtain ⟨i, hi, rfl⟩ := List.getElem_of_mem hv
      rw [← List.getD_eq_getElem _ vec0 hi]
      cases i with
      | zero => rw [a9]; exact hx
      | succ i => exact (a10 i (by omega)).1
    · rw [a7 t ht, hst t ht.le, (a10 t ht).2 k, a5 t ht]
      exact (stage_near (k1 t ht) (hm1 t ht) (hm2 t ht)).1 k hk
    · rw [a7 t ht] at hk ⊢
      rw [hst t ht.le, a5 t ht]
      exact (stage_near (k1 t ht) (hm1 t ht) (hm2 t ht)).2 k hk
    · rw [hst N le_rfl]
      exact k2 k hk
    · have hzx : ∀ i < c.mpmiqp.Hzx.nr, rowVal c.mpmiqp.Hzx i x.e = 0 := by
        unfold HMPC.init at hrun
        obtain ⟨⟨al, be⟩, -, hrun⟩ := Py.bind_eq_ok hrun
        obtain ⟨ga, -, hrun⟩ := Py.bind_eq_ok hrun
        obtain ⟨q, h3, hrun⟩ := Py.bind_eq_ok hrun
        cases hrun
        exact (cost_entries (p := fun _ => True) trivial h.pwa h.N ⟨h.Q.1, h.Q.2.1⟩ ⟨h.P.1, h.P.2.1⟩ (fun _ _ _ _ => trivial) (fun _ _ _ _ => trivial)
          (fun _ _ _ _ => trivial) h3).2.2 x.e
      have hc := hcost x.e u.e z.e
      rw [a2, hV]
      trans miCost c.mpmiqp.Huu c.mpmiqp.Hzz c.mpmiqp.Hzx c.mpmiqp.Hxx u.e z.e x.e
      · unfold miCost
        rw [quad_dropM tuu, quad_dropM tzz]
        have z1 : ∑ i ∈ range (S.nx * S.nm * N), ∑ j ∈ range 1, z.e i * drop 1e-9 (rowVal c.mpmiqp.Hzx i x.e) * 1 = 0 :=
          Finset.sum_eq_zero fun i hi => Finset.sum_eq_zero fun j _ => by
            rw [hzx i (by rw [hsh.Hzx.1]; exact mem_range.1 hi), drop_zero]
            ring
        have z2 : ∑ i ∈ range c.mpmiqp.Hzx.nr, ∑ j ∈ range c.mpmiqp.Hzx.nc, z.e i * c.mpmiqp.Hzx.e i j * x.e j = 0 :=
          Finset.sum_eq_zero fun i hi => by
            have := hzx i (mem_range.1 hi)
            unfold rowVal at this
            simp only [mul_assoc]
            rw [← Finset.mul_sum, this, mul_zero]
        have z3 : quad (⟨1, 1, fun _ _ => quad c.mpmiqp.Hxx x.e⟩ : Mat ℝ) (fun _ => 1) = quad c.mpmiqp.Hxx x.e := by simp [quad]
        rw [z2, z3]
        exact congrArg (fun w => _ + w + _) z1
      · rw [hc]
        refine lqCost_congr ⟨h.Q.1, h.Q.2.1⟩ h.R ⟨h.P.1, h.P.2.1⟩ (fun t ht k _ => by rw [hst t ht]) fun t ht k _ => by rw [a5 t ht]

/-- C140 on `fold`: at every state, `5e-10` included, the controller answers, with the cost of the returned states and inputs -/
example (L : Lib) (hL : LibSpec L) (G : Gurobi) (hG : GurobiSpec G) : ∃ c, HMPC.init L fold 1 one1 one1 one1 origin1 = .ok c ∧
    ∀ x : Vec ℝ, x.n = 1 → ∃ o, c.feedforward G x = .ok o ∧ ∀ a, o = some a → NearTraj fold 1 origin1 1e-9 x a ∧
      a.V = lqCost one1 one1 one1 (fun t => (a.x.getD t vec0).e) (inputsOf a.u) 1 := by
  obtain ⟨c, h1, -, -⟩ := C72 L hL fold 1 one1 one1 one1 origin1 fold_args one_pos fold_good
  refine ⟨c, h1, fun x hx => ?_⟩
  have t := fold_noTiny hL h1 0
  obtain ⟨o, k1, k2⟩ := C140 L G hG fold 1 one1 one1 one1 origin1 fold_args c h1 t.Au t.Az t.Ad x hx
  exact ⟨o, k1, fun a ha => ⟨(k2 a ha).1, (k2 a ha).2 t.Huu t.Hzz⟩⟩

end Verif.Props
