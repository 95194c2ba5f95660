import Verif.Props.HybridExamples
import Verif.Proofs.HybridTiny

/- The answers of the hybrid controller on examples, what happens with tiny entries (C73), and the mpQP of the optimal modes (C74). -/
namespace Verif.Props
open Finset Spec Dyn Control

/-- zero, or of magnitude greater than `1e-9` -/
def NotTiny (a : ℝ) : Prop := a = 0 ∨ 1e-9 < |a|

theorem notTiny_neg (a : ℝ) (h : NotTiny a) : NotTiny (-a) := by
  unfold NotTiny at *
  rwa [abs_neg, neg_eq_zero]

theorem notTiny_int (n : ℤ) : NotTiny n := by
  by_cases h : n = 0
  · exact Or.inl (by rw [h]; simp)
  · refine Or.inr ?_
    have : (1 : ℝ) ≤ |(n : ℝ)| := by exact_mod_cast Int.one_le_abs h
    linarith [show (1e-9 : ℝ) < 1 by norm_num]

theorem bm_all {p : ℝ → Prop} {s : ℕ} {ns : List ℕ} {M : List (List (Mat ℝ))} (h : IsBigM s ns M)
    (hb : ∀ i < s, ∀ j < s, ∀ k < ns.getD i 0, p (bm M i j k)) : ∀ r ∈ M, ∀ A ∈ r, AllM p A := by
  intro r hr A hA k hk l hl
  obtain ⟨i, hi, rfl⟩ := List.getElem_of_mem hr
  have hi' : i < s := by rw [← h.len]; exact hi
  rw [← List.getD_eq_getElem _ [] hi] at hA
  obtain ⟨j, hj, rfl⟩ := List.getElem_of_mem hA
  have hj' : j < s := by rw [← h.row i hi']; exact hj
  rw [← List.getD_eq_getElem _ mat0 hj] at hk hl ⊢
  obtain ⟨e1, e2⟩ := h.sz i hi' j hj'
  rw [e2] at hl
  obtain rfl : l = 0 := by omega
  exact hb i hi' j hj' k (by rw [← e1]; exact hk)

/-- the program has no tiny entries at `x` if the data, the big-M constants, the next states with zero input and the slacks of the
inequalities of the domains in `x` are not tiny -/
theorem miNoTiny_of_data {L : Lib} {S : PWA} {N : ℕ} {Q R P : Mat ℝ} {X_N : Poly} (h : HybArgs S N Q R P X_N) {c : HMPC}
    (hrun : HMPC.init L S N Q R P X_N = .ok c) (hd : AllData NotTiny S Q R P X_N)
    (ha : ∀ i < S.nm, ∀ j < S.nm, ∀ k < S.nx, NotTiny (bm c.alpha i j k) ∧ NotTiny (bm c.beta i j k))
    (hg : ∀ i < S.nm, ∀ j < S.nm, ∀ k < (domAt S i).A.nr, NotTiny (bm c.gamma i j k)) {x : ℕ → ℝ}
    (hs : ∀ T ∈ S.affine_systems, ∀ k < S.nx, NotTiny (T.c.e k + rowVal T.A k x))
    (hD : ∀ D ∈ S.domains, ∀ k < D.A.nr, NotTiny (D.b.e k - rowVal (D.A.colsTo S.nx) k x)) : MiNoTiny c.mpmiqp x := by
  unfold HMPC.init at hrun
  obtain ⟨⟨al, be⟩, h1, hrun⟩ := Py.bind_eq_ok hrun
  obtain ⟨ga, h2, hrun⟩ := Py.bind_eq_ok hrun
  obtain ⟨q, h3, hrun⟩ := Py.bind_eq_ok hrun
  cases hrun
  obtain ⟨a1, a2, -, -⟩ := bigM_dynamics_inv h.pwa h1
  obtain ⟨a3, -, -⟩ := bigM_domains_inv h.pwa h2
  have z0 : NotTiny 0 := Or.inl rfl
  have z1 : NotTiny 1 := by have := notTiny_int 1; simpa using this
  have gnx : ∀ i < S.nm, (List.replicate S.nm S.nx).getD i 0 = S.nx := fun i hi => by
    rw [List.getD_eq_getElem _ _ (by simpa using hi), List.getElem_replicate]
  have gdm : ∀ i < S.nm, (S.domains.map fun D => D.A.nr).getD i 0 = (domAt S i).A.nr := fun i hi =>
    getD_map' (by rw [h.pwa.lenD]; exact hi) (fun D : Poly => D.A.nr) poly0 0
  obtain ⟨k1, k2, k3⟩ := cost_entries z0 h.pwa h.N ⟨h.Q.1, h.Q.2.1⟩ ⟨h.P.1, h.P.2.1⟩ hd.Q hd.R hd.P h3
  obtain ⟨k4, k5, k6, k7⟩ := constr_entries z0 z1 notTiny_neg h.pwa a1 a2 a3 h.N h.XN hd
    (bm_all a1 fun i hi j hj k hk => (ha i hi j hj k (by rw [gnx i hi] at hk; exact hk)).1)
    (bm_all a2 fun i hi j hj k hk => (ha i hi j hj k (by rw [gnx i hi] at hk; exact hk)).2)
    (bm_all a3 fun i hi j hj k hk => hg i hi j hj k (by rw [gdm i hi] at hk; exact hk)) h3
  exact ⟨k1, k2, k4, k5, k6, fun i hi => Or.inl (k3 x i hi), k7 x hs hD⟩

/-- one state and one input, `x⁺ = ± x + u + c` in strips, with integer data -/
structure IntSys (S : PWA) : Prop where
  nx : S.nx = 1
  nu : S.nu = 1
  sys : ∀ T ∈ S.affine_systems, ∃ a c : ℤ, (a = 1 ∨ a = -1) ∧ T = ⟨⟨1, 1, fun _ _ => (a : ℝ)⟩, ⟨1, 1, fun _ _ => 1⟩, ⟨1, fun _ => (c : ℝ)⟩, 1, 1⟩
  dom : ∀ D ∈ S.domains, ∃ lo hi : ℤ, lo ≤ hi ∧ D = strip lo hi

theorem strip_rows (k : ℕ) (hk : k < 4) (lo hi : ℝ) (w : ℕ → ℝ) : rowVal (strip lo hi).A k w =
    if k = 0 then w 0 else if k = 1 then -w 0 else if k = 2 then w 1 else -w 1 := by
  interval_cases k <;> simp [strip, Poly.fresh, rowVal, Finset.sum_range_succ]

theorem intSys_bigM {L : Lib} (hL : LibSpec L) {S : PWA} (h : PwaShape S) (hg : GoodDomains S) (hS : IntSys S) {al be ga : List (List (Mat ℝ))}
    (h1 : get_bigM_dynamics L S = .ok (al, be)) (h2 : get_bigM_domains L S = .ok ga) :
    (∀ i < S.nm, ∀ j < S.nm, ∀ k < S.nx, NotTiny (bm al i j k) ∧ NotTiny (bm be i j k)) ∧
    ∀ i < S.nm, ∀ j < S.nm, ∀ k < (domAt S i).A.nr, NotTiny (bm ga i j k) := by
  obtain ⟨al', be', ga', e1, e2, e3, e4⟩ := C70 L hL S h (by rw [hS.nx]; norm_num) hg
  rw [h1] at e1
  rw [h2] at e2
  obtain ⟨rfl, rfl⟩ := Prod.mk.inj (Except.ok.inj e1)
  cases Except.ok.inj e2
  have hsys : ∀ i < S.nm, sysAt S i ∈ S.affine_systems := fun i hi => getD_mem _ (by rw [h.lenS]; exact hi)
  have hdom : ∀ i < S.nm, domAt S i ∈ S.domains := fun i hi => getD_mem _ (by rw [h.lenD]; exact hi)
  constructor
  · intro i hi j hj k hk
    obtain ⟨m1, m2⟩ := e3 i hi j hj k hk
    rw [hS.nx] at hk m1 m2
    obtain ⟨a, c, ha, es⟩ := hS.sys _ (hsys i hi)
    obtain ⟨lo, hi', hle, ed⟩ := hS.dom _ (hdom j hj)
    have hle' : (lo : ℝ) ≤ hi' := by exact_mod_cast hle
    rw [es, ed] at m1 m2
    have key : ∀ x u : ℕ → ℝ, Spec.affine (⟨1, 1, fun _ _ => (a : ℝ)⟩ : Mat ℝ) ⟨1, 1, fun _ _ => 1⟩ ⟨1, fun _ => (c : ℝ)⟩ x u k = a * x 0 + u 0 + c := by
      intro x u
      simp [Spec.affine]
    simp only [key, strip_mem] at m1 m2
    rcases ha with rfl | rfl
    · rw [m1.unique (b := ((lo - 1 + c : ℤ) : ℝ)) ⟨⟨fun _ => lo, fun _ => -1, ?_, by push_cast; ring⟩, ?_⟩,
        m2.unique (b := ((hi' + 1 + c : ℤ) : ℝ)) ⟨⟨fun _ => hi', fun _ => 1, ?_, by push_cast; ring⟩, ?_⟩]
      · exact ⟨notTiny_int _, notTiny_int _⟩
      · norm_num [pair, hle']
      · rintro v ⟨x, u, ⟨b1, b2, b3, b4⟩, rfl⟩
        simp [pair] at b1 b2 b3 b4
        push_cast
        linarith
      · norm_num [pair, hle']
      · rintro v ⟨x, u, ⟨b1, b2, b3, b4⟩, rfl⟩
        simp [pair] at b1 b2 b3 b4
        push_cast
        linarith
    · rw [m1.unique (b := ((-hi' - 1 + c : ℤ) : ℝ)) ⟨⟨fun _ => hi', fun _ => -1, ?_, by push_cast; ring⟩, ?_⟩,
        m2.unique (b := ((-lo + 1 + c : ℤ) : ℝ)) ⟨⟨fun _ => lo, fun _ => 1, ?_, by push_cast; ring⟩, ?_⟩]
      · exact ⟨notTiny_int _, notTiny_int _⟩
      · norm_num [pair, hle']
      · rintro v ⟨x, u, ⟨b1, b2, b3, b4⟩, rfl⟩
        simp [pair] at b1 b2 b3 b4
        push_cast
        linarith
      · norm_num [pair, hle']
      · rintro v ⟨x, u, ⟨b1, b2, b3, b4⟩, rfl⟩
        simp [pair] at b1 b2 b3 b4
        push_cast
        linarith
  · intro i hi j hj k hk
    have m := e4 i hi j hj k hk
    rw [hS.nx] at m
    obtain ⟨lo1, hi1, -, ed1⟩ := hS.dom _ (hdom i hi)
    obtain ⟨lo, hi', hle, ed⟩ := hS.dom _ (hdom j hj)
    have hle' : (lo : ℝ) ≤ hi' := by exact_mod_cast hle
    rw [ed1] at m hk
    rw [ed] at m
    have hk : k < 4 := hk
    simp only [strip_rows k hk, strip_mem] at m
    interval_cases k
    · rw [m.unique (b := ((hi' - hi1 : ℤ) : ℝ)) ⟨⟨fun _ => hi', fun _ => 0, ?_, by simp [pair, strip, Poly.fresh]⟩, ?_⟩]
      · exact notTiny_int _
      · norm_num [pair, hle']
      · rintro v ⟨x, u, ⟨b1, b2, b3, b4⟩, rfl⟩
        simp [pair, strip, Poly.fresh] at b1 b2 b3 b4 ⊢
        linarith
    · rw [m.unique (b := ((-lo + lo1 : ℤ) : ℝ)) ⟨⟨fun _ => lo, fun _ => 0, ?_, by simp [pair, strip, Poly.fresh]⟩, ?_⟩]
      · exact notTiny_int _
      · norm_num [pair, hle']
      · rintro v ⟨x, u, ⟨b1, b2, b3, b4⟩, rfl⟩
        simp [pair, strip, Poly.fresh] at b1 b2 b3 b4 ⊢
        linarith
    · rw [m.unique (b := 0) ⟨⟨fun _ => lo, fun _ => 1, ?_, by simp [pair, strip, Poly.fresh]⟩, ?_⟩]
      · exact Or.inl rfl
      · norm_num [pair, hle']
      · rintro v ⟨x, u, ⟨b1, b2, b3, b4⟩, rfl⟩
        simp [pair, strip, Poly.fresh] at b1 b2 b3 b4 ⊢
        linarith
    · rw [m.unique (b := 0) ⟨⟨fun _ => lo, fun _ => -1, ?_, by simp [pair, strip, Poly.fresh]⟩, ?_⟩]
      · exact Or.inl rfl
      · norm_num [pair, hle']
      · rintro v ⟨x, u, ⟨b1, b2, b3, b4⟩, rfl⟩
        simp [pair, strip, Poly.fresh] at b1 b2 b3 b4 ⊢
        linarith

/-- no tiny entries for these systems in an integer state -/
theorem intSys_noTiny {L : Lib} (hL : LibSpec L) {S : PWA} {N : ℕ} {Q R P : Mat ℝ} {X_N : Poly} (h : HybArgs S N Q R P X_N) (hg : GoodDomains S)
    (hS : IntSys S) {c : HMPC} (hrun : HMPC.init L S N Q R P X_N = .ok c) (hQ : AllM NotTiny Q) (hR : AllM NotTiny R) (hP : AllM NotTiny P)
    (hX : AllM NotTiny X_N.A ∧ AllV NotTiny X_N.b) (n : ℤ) : MiNoTiny c.mpmiqp (fun _ => (n : ℝ)) := by
  obtain ⟨-, h1, h2, -⟩ := init_inv h hrun
  obtain ⟨k1, k2⟩ := intSys_bigM hL h.pwa hg hS h1 h2
  have z : ∀ (a : ℝ) (n : ℤ), a = n → NotTiny a := fun a n e => e ▸ notTiny_int n
  refine miNoTiny_of_data h hrun ⟨fun T hT => ?_, fun D hD => ?_, hQ, hR, hP, hX⟩ k1 k2 (fun T hT k hk => ?_) (fun D hD k hk => ?_)
  · obtain ⟨a, c, -, rfl⟩ := hS.sys T hT
    exact ⟨fun _ _ _ _ => notTiny_int a, fun _ _ _ _ => z _ 1 (by simp), fun _ _ => notTiny_int c⟩
  · obtain ⟨lo, hi', -, rfl⟩ := hS.dom D hD
    refine ⟨fun i hi j hj => ?_, fun i hi => ?_⟩
    · have z0 : NotTiny 0 := Or.inl rfl
      have z1 : NotTiny 1 := z _ 1 (by norm_num)
      show NotTiny (if i = 0 then (if j = 0 then 1 else 0) else if i = 1 then (if j = 0 then -1 else 0)
        else if i = 2 then (if j = 0 then 0 else 1) else (if j = 0 then 0 else -1))
      split_ifs
      all_goals first | exact z0 | exact z1 | exact notTiny_neg _ z1
    · have hi : i < 4 := hi
      interval_cases i <;> simp only [strip, Poly.fresh] <;> norm_num
      · exact notTiny_int _
      · exact notTiny_neg _ (notTiny_int _)
      · exact z _ 1 (by norm_num)
      · exact z _ 1 (by norm_num)
  · obtain ⟨a, c, -, rfl⟩ := hS.sys T hT
    exact z _ (c + a * n) (by simp [rowVal])
  · obtain ⟨lo, hi', -, rfl⟩ := hS.dom D hD
    have hk : k < 4 := hk
    rw [hS.nx]
    interval_cases k <;> simp [strip, Poly.fresh, rowVal, Mat.colsTo]
    · exact z _ (hi' - n) (by push_cast; ring)
    · exact z _ (-lo + n) (by push_cast; ring)
    · exact z _ 1 (by norm_num)
    · exact z _ 1 (by norm_num)

theorem all_one1 : AllM NotTiny one1 := fun _ _ _ _ => by
  have := notTiny_int 1
  simpa [one1] using this

theorem hinge_int : IntSys hinge :=
  ⟨rfl, rfl, fun T hT => by
      simp only [hinge, List.mem_cons, List.not_mem_nil, or_false] at hT
      rcases hT with rfl | rfl
      · exact ⟨1, 0, Or.inl rfl, by norm_num⟩
      · exact ⟨-1, 1, Or.inr rfl, by norm_num⟩, fun D hD => by
      simp only [hinge, List.mem_cons, List.not_mem_nil, or_false] at hD
      rcases hD with rfl | rfl
      · exact ⟨-1, 0, by norm_num, by norm_num⟩
      · exact ⟨0, 1, by norm_num, by norm_num⟩⟩

theorem hinge_noTiny {L : Lib} (hL : LibSpec L) {N : ℕ} (hN : 0 < N) {c : HMPC} (hrun : HMPC.init L hinge N one1 one1 one1 interval1 = .ok c) (n : ℤ) :
    MiNoTiny c.mpmiqp (fun _ => (n : ℝ)) := by
  have z : ∀ (a : ℝ) (n : ℤ), a = n → NotTiny a := fun a n e => e ▸ notTiny_int n
  refine intSys_noTiny hL (hinge_args N hN) hinge_good hinge_int hrun all_one1 all_one1 all_one1 ⟨fun i hi j hj => ?_, fun i hi => z _ 1 (by simp [interval1, Poly.fresh])⟩ n
  have hi : i < 2 := hi
  interval_cases i
  · exact z _ 1 (by simp [interval1, Poly.fresh])
  · exact z _ (-1) (by simp [interval1, Poly.fresh])

/-- C73 on the example: from `x = -1` over two steps the answer is optimal over all the modes, with a value of at most `5/4` -/
example (L : Lib) (hL : LibSpec L) (G : Gurobi) (hG : GurobiSpec G) : ∃ c a, HMPC.init L hinge 2 one1 one1 one1 interval1 = .ok c ∧
    c.feedforward G ⟨1, fun _ => -1⟩ = .ok (some a) ∧ Consistent (hyb hinge 2 one1 one1 one1 interval1) (fun _ => -1) a ∧ a.V ≤ 5 / 4 ∧
    (hyb hinge 2 one1 one1 one1 interval1).Opt (fun _ => -1) (fun t => a.modes.getD t 0) (inputsOf a.u) := by
  obtain ⟨c, h1, -, -⟩ := C72 L hL hinge 2 one1 one1 one1 interval1 (hinge_args 2 (by norm_num)) (by show 0 < 1; norm_num) hinge_good
  have ht := hinge_noTiny hL (by norm_num) h1 (-1)
  simp only [Int.cast_neg, Int.cast_one] at ht
  obtain ⟨o, k1, k2, k3⟩ := C73_partial L hL G hG _ _ _ _ _ _ (hinge_args 2 (by norm_num)) weights1 (by show 0 < 1; norm_num) hinge_good c h1 ⟨1, fun _ => -1⟩ rfl ht
  obtain ⟨k4, k5⟩ := k3 (hinge_noEq 2)
  cases o with
  | none => exact absurd hinge_feas (k4.1 rfl _ _)
  | some a =>
    refine ⟨c, a, h1, k1, (k2 a rfl).1, ?_, k5 a rfl⟩
    refine ((k2 a rfl).2 _ _ hinge_feas).trans (le_of_eq ?_)
    norm_num [HybOcp.cost, hyb, lqCost, one1_quad, hinge, HybOcp.x, Spec.traj, Spec.affine, Finset.sum_range_succ]

end Verif.Props
