import Verif.Props.HybridDesign
import Verif.Props.HybridValue
import Verif.Props.MpcStabilityExamples
import Verif.Props.ControllerTest

/- C118 on a system with two modes. -/
namespace Verif.Props
open Finset Spec Dyn Control Filter Topology

/-- `x⁺ = -x + u + 10` -/
noncomputable def mirror : AffineSystem := ⟨⟨1, 1, fun _ _ => -1⟩, ⟨1, 1, fun _ _ => 1⟩, ⟨1, fun _ => 10⟩, 1, 1⟩

/-- `x⁺ = x + u` for `|x| ≤ 5` and `x⁺ = -x + u + 10` for `5 ≤ x ≤ 6`, with `|u| ≤ 1` -/
noncomputable def bent : PWA := ⟨1, 1, [⟨one1, one1, Vec.zeros 1, 1, 1⟩, mirror], [boxXU, strip 5 6], 2⟩

theorem bent_init : PWA.init [.lin integrator, .aff mirror] [boxXU, strip 5 6] = .ok bent := by
  have e1 : onlyElement ([Sys.lin integrator, .aff mirror].map Sys.nx) = .ok 1 := rfl
  have e2 : onlyElement ([Sys.lin integrator, .aff mirror].map Sys.nu) = .ok 1 := rfl
  have e3 : onlyElement ([boxXU, strip 5 6].map (·.A.nc)) = .ok 2 := rfl
  unfold PWA.init
  rw [e1, Py.ok_bind, e2, Py.ok_bind, e3, Py.ok_bind]
  rfl

theorem boxXU_strip : boxXU = strip (-5) 5 := by
  unfold boxXU strip
  congr 2
  funext i
  rcases i with _ | _ | i
  · norm_num
  · norm_num
  · simp

theorem bent_sys : ∀ T ∈ [Sys.lin integrator, .aff mirror], SysOk T := by
  intro T hT
  simp only [List.mem_cons, List.not_mem_nil, or_false] at hT
  rcases hT with rfl | rfl <;> exact ⟨rfl, rfl, rfl, rfl, rfl⟩

theorem strip_domOk {lo hi : ℝ} (h : lo ≤ hi) : DomOk 2 (strip lo hi) := by
  refine ⟨⟨rfl, rfl, rfl, rfl⟩, by show 0 < 4; norm_num, rfl, ⟨fun j => if j = 0 then lo else 0, (strip_mem _).2 (by simp [h])⟩,
    ⟨max (max |lo| |hi|) 1, fun w hw j hj => ?_⟩⟩
  obtain ⟨h1, h2, h3, h4⟩ := (strip_mem w).1 hw
  interval_cases j
  · exact (abs_le_max_abs_abs h2 h1).trans (le_max_left _ _)
  · exact (abs_le.2 ⟨h4, h3⟩).trans (le_max_right _ _)

theorem bent_dom : ∀ D ∈ [boxXU, strip 5 6], DomOk 2 D := by
  intro D hD
  simp only [List.mem_cons, List.not_mem_nil, or_false] at hD
  rcases hD with rfl | rfl
  · rw [boxXU_strip]
    exact strip_domOk (by norm_num)
  · exact strip_domOk (by norm_num)

theorem bent_int : IntSys bent :=
  ⟨rfl, rfl, fun T hT => by
      simp only [bent, List.mem_cons, List.not_mem_nil, or_false] at hT
      rcases hT with rfl | rfl
      · exact ⟨1, 0, Or.inl rfl, by simp [one1, Vec.zeros]⟩
      · exact ⟨-1, 10, Or.inr rfl, by simp [mirror]⟩, fun D hD => by
      simp only [bent, List.mem_cons, List.not_mem_nil, or_false] at hD
      rcases hD with rfl | rfl
      · exact ⟨-5, 5, by norm_num, by rw [boxXU_strip]; norm_num⟩
      · exact ⟨5, 6, by norm_num, by norm_num⟩⟩

/-- C118 on the example: all the hypotheses hold, the set of `mcais` is `|x| ≤ 2` and invariant.  At `2` the value is at most `1/2 x P x`; from `6` the
controller goes through the second mode. -/
theorem bent_design (L : Lib) (hL : LibSpec L) (G : Gurobi) (hG : GurobiSpec G) : ∃ (dare : Mat ℝ → Mat ℝ → Mat ℝ → Mat ℝ → Py (Mat ℝ)) (K : Mat ℝ),
    DareArgs integrator half1 one1 ∧ (∀ P, dare integrator.A integrator.B half1 one1 = .ok P → DareSpec 1 1 integrator.A integrator.B half1 one1 P) ∧
    (LinearSystem.solve_dare dare half1 one1 integrator).1 = .ok (one1, K) ∧ ∃ T X_N c,
    LinearSystem.mcais L integrator K boxXU T = .ok (some X_N) ∧ HMPC.init L bent 3 half1 one1 one1 X_N = .ok c ∧
    (problem integrator 3 half1 one1 one1 boxXU X_N).TerminalInvariant K ∧ (∀ x, IneqHold X_N.A X_N.b x ↔ |x 0| ≤ 2) ∧
    X_N.Inv 1 ∧ X_N.C.nr = 0 ∧ (∀ n : ℤ, MiNoTiny c.mpmiqp fun _ => (n : ℝ)) ∧
    (∃ a, c.feedforward G ⟨1, fun _ => 2⟩ = .ok (some a) ∧ a.V ≤ 2) ∧
    ∃ a v y m, c.feedforward G ⟨1, fun _ => 6⟩ = .ok (some a) ∧ a.V ≤ 100 ∧ c.feedback G ⟨1, fun _ => 6⟩ = .ok (some v) ∧
      bent.simulate ⟨1, fun _ => 6⟩ [v] = .ok ([⟨1, fun _ => 6⟩, y], [m]) := by
  obtain ⟨dare, K, hd, k1, T, X_N, -, t1, -, hinv, hset, hrows, hK, -⟩ := integrator_pipeline L hL
  obtain ⟨hP1, kr, kc, -⟩ := solve_dare_ok integrator_dareArgs hd k1
  obtain ⟨T', X', c, s1, s2, s3⟩ := C118 L hL G hG _ _ bent_sys bent bent_init bent_dom 0 integrator boxXU rfl rfl boxXU_inside half1 one1 one1 K
    integrator_dareArgs dare hd k1 3 (by norm_num)
  have hX : X' = X_N := by
    have h1 := s1 (max T T') (le_max_right _ _)
    rw [t1 (max T T') (le_max_left _ _)] at h1
    exact ((Option.some.inj (Except.ok.inj h1))).symm
  subst hX
  obtain ⟨r1, r2, -⟩ := s3 hinv
  obtain ⟨hsh, hok, hg, hdm⟩ := pwa_of_init bent_sys bent_init bent_dom
  obtain ⟨hsz, hXC, -⟩ := terminalInvariant_of_mcais L hL integrator one_pos K boxXU integrator_dareArgs.sys ⟨kr, kc⟩
    ⟨rfl, rfl, rfl, rfl⟩ rfl ((boxXU_mem _).2 (by simp)) boxXU_bounded T X' (t1 T le_rfl) 3 half1 one1 one1
  have hargs : HybArgs bent 3 half1 one1 one1 X' :=
    ⟨hsh, by norm_num, (integrator_args 3 (by norm_num)).w.symQ, weights1.symP, ⟨rfl, rfl⟩, hsz⟩
  have hnt : ∀ n : ℤ, MiNoTiny c.mpmiqp (fun _ => (n : ℝ)) := by
    refine intSys_noTiny hL hargs hg bent_int s2 (fun _ _ _ _ => Or.inr ?_) all_one1 all_one1 ⟨fun i hi j hj => ?_, fun i hi => ?_⟩
    · show 1e-9 < |(1 / 2 : ℝ)|
      norm_num [abs_of_pos]
    · rw [hsz.1] at hj
      change j < 1 at hj
      obtain rfl : j = 0 := by omega
      obtain ⟨k, e, -⟩ := hrows i
      rw [e]
      have hval : rowVal boxXU.A k (withInput 1 K fun _ => 1) = 1 ∨ rowVal boxXU.A k (withInput 1 K fun _ => 1) = -1 ∨
          rowVal boxXU.A k (withInput 1 K fun _ => 1) = -1 / 2 ∨ rowVal boxXU.A k (withInput 1 K fun _ => 1) = 1 / 2 := by
        obtain ⟨y0, y1, y2, y3⟩ := integrator_rows hK fun _ => (1 : ℝ)
        rcases k with _ | _ | _ | k
        · exact .inl y0
        · exact .inr (.inl y1)
        · exact .inr (.inr (.inl y2))
        · refine .inr (.inr (.inr (Eq.trans ?_ y3)))
          simp [boxXU, Poly.fresh, rowVal]
      right
      rcases hval with e | e | e | e <;> rw [e] <;> norm_num [abs_of_pos, abs_of_neg]
    · obtain ⟨k, -, e⟩ := hrows i
      rw [e]
      right
      show 1e-9 < |if k < 2 then (5 : ℝ) else 1|
      split_ifs <;> norm_num
  refine ⟨dare, K, integrator_dareArgs, hd, k1, T, X', c, t1 T le_rfl, s2, hinv, hset, mcais_sizes hL one_pos integrator_dareArgs.sys ⟨kr, kc⟩ ⟨rfl, rfl, rfl, rfl⟩ rfl
    ((boxXU_mem _).2 (by simp)) boxXU_bounded (t1 T le_rfl), hXC, hnt, ?_, ?_⟩
  · obtain ⟨a, a1, a2⟩ := r1 ⟨1, fun _ => 2⟩ rfl ((hset _).2 (by norm_num)) (by simpa using hnt 2)
    refine ⟨a, a1, a2.trans (le_of_eq ?_)⟩
    rw [one1_quad]
    norm_num
  · have hf : (hyb bent 3 half1 one1 one1 X').Feas (fun _ => 6) (fun t => if t = 0 then 1 else 0) fun t _ => if t < 2 then -1 else 0 := by
      refine (feas_iff_ineq ⟨fun j hj => (hdm j hj).noEq, hXC⟩ _ _ _).2 ⟨fun t _ => ?_, fun t ht => ?_, (hset _).2 ?_⟩
      · show (if t = 0 then 1 else 0) < 2
        split_ifs <;> norm_num
      · have ht : t < 3 := ht
        have key : ∀ lo hi : ℝ, ∀ w, _ → IneqHold (strip lo hi).A (strip lo hi).b w := fun lo hi w h => ((strip_mem (lo := lo) (hi := hi) w).2 h).1
        interval_cases t
        · refine key 5 6 _ ?_
          norm_num [HybOcp.x, Spec.traj, hyb, bent, pair]
        · show IneqHold boxXU.A boxXU.b _
          rw [boxXU_strip]
          refine key (-5) 5 _ ?_
          norm_num [HybOcp.x, Spec.traj, Spec.affine, hyb, bent, mirror, pair]
        · show IneqHold boxXU.A boxXU.b _
          rw [boxXU_strip]
          refine key (-5) 5 _ ?_
          norm_num [HybOcp.x, Spec.traj, Spec.affine, hyb, bent, mirror, one1, Vec.zeros, pair]
      · norm_num [HybOcp.x, Spec.traj, Spec.affine, hyb, bent, mirror, one1, Vec.zeros]
    obtain ⟨a, v, y, m, e1, e2, e3⟩ := (r2 (fun _ => ⟨1, fun _ => 6⟩) (fun _ => ⟨1, fun _ => 0⟩) 0 ⟨rfl, fun t ht => absurd ht (by omega)⟩
      (fun t _ => by simpa using hnt 6) (fun t ht => absurd ht (by omega)) ⟨_, _, hf⟩).1 0 le_rfl
    refine ⟨a, v, y, m, e1, ?_, e2, e3⟩
    obtain ⟨o, o1, o2, -⟩ := C73_partial L hL G hG bent 3 half1 one1 one1 X' hargs (weights_of_dare integrator_dareArgs hP1) one_pos hg c s2 ⟨1, fun _ => 6⟩ rfl (by simpa using hnt 6)
    have e1' : c.feedforward G ⟨1, fun _ => 6⟩ = .ok (some a) := e1
    rw [e1'] at o1
    refine ((o2 a (Except.ok.inj o1).symm).2 _ _ hf).trans ?_
    show lqCost half1 one1 one1 _ _ 3 ≤ 100
    norm_num [lqCost, quad, half1, one1, Finset.sum_range_succ, HybOcp.x, Spec.traj, Spec.affine, hyb, bent, mirror, Vec.zeros]

end Verif.Props
