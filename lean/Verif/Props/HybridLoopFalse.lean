import Verif.Props.HybridLoop
import Verif.Props.HybridModes
import Verif.Props.PwaWellPosed

/- The closed loop of the hybrid controller on examples: C100 and C101 of properties.jsonl. -/
namespace Verif.Props
open Finset Spec Dyn Control Filter Topology

/-- `x⁺ = x + u + 10` for `-1 ≤ x ≤ 0` and `x⁺ = x + u` for `0 ≤ x ≤ 1`, with `|u| ≤ 1` -/
noncomputable def jump : PWA :=
  ⟨1, 1, [⟨⟨1, 1, fun _ _ => 1⟩, ⟨1, 1, fun _ _ => 1⟩, ⟨1, fun _ => 10⟩, 1, 1⟩, ⟨⟨1, 1, fun _ _ => 1⟩, ⟨1, 1, fun _ _ => 1⟩, ⟨1, fun _ => 0⟩, 1, 1⟩],
    [strip (-1) 0, strip 0 1], 2⟩

/-- `0 ≤ x ≤ 1` -/
noncomputable def unit1 : Poly :=
  Poly.fresh ⟨2, 1, fun i _ => if i = 0 then 1 else -1⟩ ⟨2, fun i => if i = 0 then 1 else 0⟩ (Mat.zeros 0 1) (Vec.zeros 0)

theorem jump_pwa : PwaShape jump :=
  ⟨rfl, rfl, by show 0 < 2; norm_num, fun T hT => by
      simp only [jump, List.mem_cons, List.not_mem_nil, or_false] at hT
      rcases hT with rfl | rfl <;> exact ⟨⟨rfl, rfl, rfl, rfl, rfl⟩, rfl, rfl⟩, fun D hD => by
      simp only [jump, List.mem_cons, List.not_mem_nil, or_false] at hD
      rcases hD with rfl | rfl <;> exact ⟨rfl, rfl⟩⟩

theorem jump_args : HybArgs jump 1 one1 one1 (weight 2) unit1 :=
  ⟨jump_pwa, one_pos, weights1.symQ, ⟨rfl, rfl, fun _ _ _ _ => rfl⟩, ⟨rfl, rfl⟩, ⟨rfl, rfl⟩⟩

theorem weights12 : Weights 1 1 one1 one1 (weight 2) :=
  { weights1 with symP := ⟨rfl, rfl, fun _ _ _ _ => rfl⟩, P0 := fun x => by rw [weight_quad]; positivity }

theorem miNoTiny_congr {q : MpMIQP} {nu nz nd nx : ℕ} (hq : MiShape nu nz nd nx q) {x y : ℕ → ℝ} (h : ∀ i < nx, x i = y i) (ht : MiNoTiny q x) : MiNoTiny q y where
  Huu := ht.Huu
  Hzz := ht.Hzz
  Au := ht.Au
  Az := ht.Az
  Ad := ht.Ad
  f i hi := by
    rw [← rowVal_congr' i fun j hj => h j (hq.Hzx.2 ▸ hj)]
    exact ht.f i hi
  b i hi := by
    rw [← rowVal_congr' i fun j hj => h j (hq.Ax.2 ▸ hj)]
    exact ht.b i hi

theorem jump_good : GoodDomains jump where
  shape j hj := hinge_good.shape j hj
  rows j hj := hinge_good.rows j hj
  ne j hj := hinge_good.ne j hj
  bounded j hj := hinge_good.bounded j hj

theorem jump_ok : PwaOk jump :=
  ⟨rfl, fun T hT => by
      simp only [jump, List.mem_cons, List.not_mem_nil, or_false] at hT
      rcases hT with rfl | rfl <;> exact ⟨rfl, rfl, rfl, rfl, rfl⟩, fun D hD => by
      simp only [jump, List.mem_cons, List.not_mem_nil, or_false] at hD
      rcases hD with rfl | rfl <;> exact ⟨⟨rfl, rfl, rfl, rfl⟩, by show 0 < 4; norm_num⟩⟩

theorem jump_int : IntSys jump :=
  ⟨rfl, rfl, fun T hT => by
      simp only [jump, List.mem_cons, List.not_mem_nil, or_false] at hT
      rcases hT with rfl | rfl
      · exact ⟨1, 10, Or.inl rfl, by norm_num⟩
      · exact ⟨1, 0, Or.inl rfl, by norm_num⟩, fun D hD => by
      simp only [jump, List.mem_cons, List.not_mem_nil, or_false] at hD
      rcases hD with rfl | rfl
      · exact ⟨-1, 0, by norm_num, by norm_num⟩
      · exact ⟨0, 1, by norm_num, by norm_num⟩⟩

theorem jump_noEq : (hyb jump 1 one1 one1 (weight 2) unit1).NoEq := by
  refine ⟨fun i hi => ?_, rfl⟩
  obtain ⟨lo, hi, -, -, -, e⟩ := hinge_dom hi
  show (domAt jump i).C.nr = 0
  rw [show domAt jump i = domAt hinge i from rfl, e]
  rfl

theorem unit1_term (x : ℕ → ℝ) : IneqHold unit1.A unit1.b x ↔ 0 ≤ x 0 ∧ x 0 ≤ 1 := by
  constructor
  · intro h
    have h0 := h 0 (by show 0 < 2; norm_num)
    have h1 := h 1 (by show 1 < 2; norm_num)
    simp [unit1, Poly.fresh, rowVal] at h0 h1
    exact ⟨h1, h0⟩
  · rintro ⟨h0, h1⟩ i hi
    have hi : i < 2 := hi
    interval_cases i <;> simp [unit1, Poly.fresh, rowVal, h0, h1]

theorem jump_decrease : (hyb jump 1 one1 one1 (weight 2) unit1).TerminalDecrease := by
  rintro x ⟨hx, -⟩
  obtain ⟨h0, h1⟩ := (unit1_term x).1 hx
  have hn : (hyb jump 1 one1 one1 (weight 2) unit1).next 1 x (fun _ => - x 0) 0 = 0 := by
    simp [HybOcp.next, hyb, jump, Spec.affine]
  refine ⟨1, by show 1 < 2; norm_num, fun _ => - x 0, ⟨?_, eqHold_of_noEq rfl _⟩, ⟨?_, eqHold_of_noEq rfl _⟩, ?_⟩
  · exact ((strip_mem (lo := 0) (hi := 1) _).2 (by simp [pair, hyb, jump]; exact ⟨h1, h0, by linarith, h1⟩)).1
  · exact (unit1_term _).2 (by rw [hn]; norm_num)
  · show 1 / 2 * quad (weight 2) _ + 1 / 2 * (quad one1 x + quad one1 _) ≤ 1 / 2 * quad (weight 2) x
    rw [weight_quad, weight_quad, one1_quad, one1_quad, hn]
    norm_num
    linarith

/-- from `x = 0` the second mode must be used -/
theorem jump_feas (m : ℕ → ℕ) (u : ℕ → ℕ → ℝ) (h : (hyb jump 1 one1 one1 (weight 2) unit1).Feas (fun _ => 0) m u) : m 0 = 1 ∧ 0 ≤ u 0 0 := by
  obtain ⟨⟨h1, h2, h3⟩, -⟩ := h
  have h1 : m 0 < 2 := h1 0 one_pos
  have h2 := h2 0 one_pos
  have h3 := (unit1_term _).1 h3
  simp [HybOcp.x, Spec.traj, Spec.affine, hyb] at h3
  obtain e | e : m 0 = 0 ∨ m 0 = 1 := by omega
  · exfalso
    rw [e] at h2 h3
    have h4 := (strip_mem (lo := -1) (hi := 0) _).1 ⟨h2, eqHold_of_noEq rfl _⟩
    simp [pair, hyb, jump] at h4 h3
    linarith
  · rw [e] at h3
    simp [jump] at h3
    exact ⟨e, h3.1⟩

/-- `jump` passes the check of well-posedness -/
theorem jump_wellPosed {L : Lib} (hL : LibSpec L) : jump.is_well_posed L 1e-7 = .ok true := by
  have hm : ∀ lo hi : ℝ, lo ≤ hi → (strip lo hi).Mem (fun i => if i = 0 then lo else 0) := fun lo hi h => (strip_mem _).2 (by simp [h])
  -- a ball in both strips has no positive radius
  have hb : ∀ c r, 0 ≤ r → SharedBall 2 (strip (-1) 0) (strip 0 1) c r → r ≤ 0 := by
    rintro c r hr ⟨h1, h2⟩
    have hs : ∀ s : ℝ, |s| = r → Real.sqrt (∑ j ∈ range 2, (if j = 0 then s else 0) ^ 2) ≤ r := fun s hs => by
      simp [Real.sqrt_sq_eq_abs, hs]
    have a1 := h1 (fun j => if j = 0 then r else 0) (fun i hi => absurd hi (by simp [strip, Poly.fresh, Mat.zeros])) (hs r (abs_of_nonneg hr))
    have a2 := h2 (fun j => if j = 0 then -r else 0) (fun i hi => absurd hi (by simp [strip, Poly.fresh, Mat.zeros])) (hs (-r) (by rw [abs_neg, abs_of_nonneg hr]))
    have b1 := ((strip_mem _).1 a1).1
    have b2 := ((strip_mem _).1 a2).2.1
    simp at b1 b2
    linarith
  have hpair : ∀ i j : ℕ, i < j → ∀ D E, jump.domains[i]? = some D → jump.domains[j]? = some E → D = strip (-1) 0 ∧ E = strip 0 1 := by
    intro i j hij D E hD hE
    have hj : j < 2 := (List.getElem?_eq_some_iff.1 hE).1
    obtain ⟨rfl, rfl⟩ : i = 0 ∧ j = 1 := by omega
    simp [jump] at hD hE
    exact ⟨hD.symm, hE.symm⟩
  obtain ⟨w, h1, h2⟩ := C60_partial L hL 2 jump 1e-7 (by norm_num) fun i j hij D E hD hE => by
    obtain ⟨rfl, rfl⟩ := hpair i j hij D E hD hE
    exact ⟨⟨⟨rfl, rfl, rfl, rfl⟩, ⟨rfl, rfl, rfl, rfl⟩, rfl, rfl, ⟨_, hm _ _ (by norm_num)⟩, ⟨_, hm _ _ (by norm_num)⟩⟩, 0, fun c r hr h => hb c r hr h⟩
  rw [h1, h2.2 fun i j hij D E hD hE c r hs => ?_]
  obtain ⟨rfl, rfl⟩ := hpair i j hij D E hD hE
  by_contra hr
  have := hb c r (by linarith [show (0 : ℝ) ≤ 1e-7 by norm_num]) hs
  linarith [show (0 : ℝ) ≤ 1e-7 by norm_num]

/-- C100 is false: the domains of `jump` touch at `x = 0`, `is_well_posed` accepts the system, the terminal cost decreases and the programs have no tiny entries; from
`x = 0` the controller plans with the second mode, `simulate` takes the first one, and in the next state there is no answer. -/
theorem C100_false : ∃ (S : PWA) (N : ℕ) (Q R P : Mat ℝ) (X_N : Poly) (x0 : Vec ℝ), HybArgs S N Q R P X_N ∧ Weights S.nx S.nu Q R P ∧ GoodDomains S ∧
    PwaOk S ∧ (hyb S N Q R P X_N).NoEq ∧ (hyb S N Q R P X_N).TerminalDecrease ∧ (∃ m u, (hyb S N Q R P X_N).Feas x0.e m u) ∧
    ∀ L G, LibSpec L → GurobiSpec G → S.is_well_posed L 1e-7 = .ok true ∧ ∃ c, HMPC.init L S N Q R P X_N = .ok c ∧
      ∃ x u : ℕ → Vec ℝ, x 0 = x0 ∧ HybridLoop G c S x u 1 ∧ (∀ t ≤ 1, MiNoTiny c.mpmiqp (x t).e) ∧
        (∀ m u, ¬ (hyb S N Q R P X_N).Feas (x 1).e m u) ∧ c.feedback G (x 1) = .ok none := by
  have hfeas : (hyb jump 1 one1 one1 (weight 2) unit1).Feas (fun _ => 0) (fun _ => 1) (fun _ _ => 0) := by
    refine ⟨⟨fun t ht => by show 1 < 2; norm_num, fun t ht => ?_, ?_⟩, fun t _ => eqHold_of_noEq rfl _, eqHold_of_noEq rfl _⟩
    · have ht : t < 1 := ht
      interval_cases t
      exact ((strip_mem (lo := 0) (hi := 1) _).2 (by norm_num [pair, hyb, jump, HybOcp.x, Spec.traj])).1
    · exact (unit1_term _).2 (by norm_num [HybOcp.x, Spec.traj, Spec.affine, hyb, jump])
  have hinf : ∀ m u, ¬ (hyb jump 1 one1 one1 (weight 2) unit1).Feas (fun _ => 10) m u := by
    rintro m u ⟨⟨h1, h2, -⟩, -⟩
    have h1 : m 0 < 2 := h1 0 one_pos
    have h2 := h2 0 one_pos
    obtain e | e : m 0 = 0 ∨ m 0 = 1 := by omega
    · rw [e] at h2
      have h4 := ((strip_mem (lo := -1) (hi := 0) _).1 ⟨h2, eqHold_of_noEq rfl _⟩).1
      norm_num [pair, hyb, jump, HybOcp.x, Spec.traj] at h4
    · rw [e] at h2
      have h4 := ((strip_mem (lo := 0) (hi := 1) _).1 ⟨h2, eqHold_of_noEq rfl _⟩).1
      norm_num [pair, hyb, jump, HybOcp.x, Spec.traj] at h4
  refine ⟨jump, 1, one1, one1, weight 2, unit1, ⟨1, fun _ => 0⟩, jump_args, weights12, jump_good, jump_ok, jump_noEq, jump_decrease, ⟨_, _, hfeas⟩,
    fun L G hL hG => ⟨jump_wellPosed hL, ?_⟩⟩
  obtain ⟨c, hrun, -, -⟩ := C72 L hL jump 1 one1 one1 (weight 2) unit1 jump_args one_pos jump_good
  have z : ∀ (a : ℝ) (n : ℤ), a = n → NotTiny a := fun a n e => e ▸ notTiny_int n
  have hnt : ∀ n : ℤ, MiNoTiny c.mpmiqp (fun _ => (n : ℝ)) := intSys_noTiny hL jump_args jump_good jump_int hrun all_one1 all_one1
    (fun _ _ _ _ => z _ 2 (by simp [weight]))
    ⟨fun i hi j hj => by
      have hi : i < 2 := hi
      interval_cases i
      · exact z _ 1 (by simp [unit1, Poly.fresh])
      · exact z _ (-1) (by simp [unit1, Poly.fresh]),
     fun i hi => by
      have hi : i < 2 := hi
      interval_cases i
      · exact z _ 1 (by simp [unit1, Poly.fresh])
      · exact z _ 0 (by simp [unit1, Poly.fresh])⟩
  have hn0 : MiNoTiny c.mpmiqp (⟨1, fun _ => 0⟩ : Vec ℝ).e := by simpa using hnt 0
  have hn1 : MiNoTiny c.mpmiqp (⟨1, fun _ => 10⟩ : Vec ℝ).e := by simpa using hnt 10
  obtain ⟨ans, hex⟩ := hybrid_answer hL hG jump_args weights12 one_pos jump_good jump_noEq hrun (x := ⟨1, fun _ => 0⟩) rfl hn0
  obtain ⟨v, hv⟩ := hex ⟨_, _, hfeas⟩
  obtain ⟨a, -, vn, ve, -, vo⟩ := ans v hv
  have vn : v.n = 1 := vn
  -- the input is zero
  have hv0 : v.e 0 = 0 := by
    obtain ⟨m1, m2⟩ := jump_feas _ _ vo.1
    have hle := vo.2 _ _ hfeas
    simp only [HybOcp.cost, lqCost] at hle
    simp only [show (hyb jump 1 one1 one1 (weight 2) unit1).N = 1 from rfl, Finset.sum_range_one] at hle
    simp only [show (hyb jump 1 one1 one1 (weight 2) unit1).Q = one1 from rfl, show (hyb jump 1 one1 one1 (weight 2) unit1).R = one1 from rfl,
      show (hyb jump 1 one1 one1 (weight 2) unit1).P = weight 2 from rfl, one1_quad, weight_quad] at hle
    simp only [HybOcp.x, Spec.traj, Spec.affine, hyb, m1] at hle
    simp [jump] at hle
    rw [← ve]
    nlinarith [hle]
  have hsim : ∃ y m, jump.simulate ⟨1, fun _ => 0⟩ [v] = .ok ([⟨1, fun _ => 0⟩, y], [m]) :=
    simulate_step jump_ok rfl vn (j := 0) (by show 0 < 2; norm_num) rfl
      ((strip_mem (lo := -1) (hi := 0) _).2 (by norm_num [Vec.append, hv0])).1
  obtain ⟨y, m, hy⟩ := hsim
  obtain ⟨⟨-, hm2⟩, yn, ye⟩ := simulate_one jump_ok rfl vn hy
  have yn : y.n = 1 := yn
  have hm : m = 0 := by
    by_contra hne
    refine hm2 0 (by omega) _ rfl ⟨fun i hi => ?_, fun hpos => by simp [strip, Poly.fresh, Mat.zeros] at hpos⟩
    have h1 : rowVal _ i _ ≤ _ := ((strip_mem (lo := -1) (hi := 0) ((⟨1, fun _ => 0⟩ : Vec ℝ).append v).e).2 (by norm_num [Vec.append, hv0])).1 i hi
    linarith [show (0 : ℝ) ≤ 1e-7 by norm_num]
  have hy0 : y.e 0 = 10 := by
    rw [ye 0 one_pos, hm]
    simp [Spec.affine, jump, hv0]
  have hye : ∀ i < 1, (10 : ℝ) = y.e i := fun i hi => by
    obtain rfl : i = 0 := by omega
    exact hy0.symm
  have hinf' : ∀ m u, ¬ (hyb jump 1 one1 one1 (weight 2) unit1).Feas y.e m u := fun m u hf =>
    hinf m u ((feas_iff_ineq jump_noEq _ _ _).2 (hyb_ineq_start jump_args (fun k hk => (hye k hk).symm) hf.1).1)
  obtain ⟨⟨-, cN, -⟩, -, -, hsh, -, -⟩ := init_inv jump_args hrun
  refine ⟨c, hrun, fun t => if t = 0 then ⟨1, fun _ => 0⟩ else y, fun _ => v, rfl, ⟨rfl, fun t ht => ?_⟩, fun t ht => ?_, fun m' u' hf => ?_, ?_⟩
  · obtain rfl : t = 0 := by omega
    exact ⟨hv, m, hy⟩
  · rcases (by omega : t = 0 ∨ t = 1) with rfl | rfl
    · exact hn0
    · exact miNoTiny_congr hsh (fun i hi => hye i hi) hn1
  · exact hinf' m' u' hf
  · show c.feedback G y = .ok none
    obtain ⟨o, k1, k2, k3⟩ := C73_partial L hL G hG _ _ _ _ _ _ jump_args weights12 one_pos jump_good c hrun y yn (miNoTiny_congr hsh (fun i hi => hye i hi) hn1)
    rw [(k3 jump_noEq).1.2 hinf'] at k1
    exact (C65_hybrid G c (by rw [cN]; exact one_pos) y).2.2 k1

end Verif.Props
