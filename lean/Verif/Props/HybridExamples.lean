import Verif.Props.Hybrid

/- A system with two modes on which the theorems about the hybrid controller are tried out. -/
namespace Verif.Props
open Finset Spec Dyn Control

/-- `lo ≤ x ≤ hi`, `|u| ≤ 1` -/
noncomputable def strip (lo hi : ℝ) : Poly :=
  Poly.fresh ⟨4, 2, fun i j => if i = 0 then (if j = 0 then 1 else 0) else if i = 1 then (if j = 0 then -1 else 0)
    else if i = 2 then (if j = 0 then 0 else 1) else (if j = 0 then 0 else -1)⟩
    ⟨4, fun i => if i = 0 then hi else if i = 1 then -lo else 1⟩ (Mat.zeros 0 2) (Vec.zeros 0)

theorem strip_mem {lo hi : ℝ} (w : ℕ → ℝ) : InPoly (strip lo hi).A (strip lo hi).b (strip lo hi).C (strip lo hi).d w ↔
    w 0 ≤ hi ∧ lo ≤ w 0 ∧ w 1 ≤ 1 ∧ -1 ≤ w 1 := by
  constructor
  · rintro ⟨h, -⟩
    have h0 := h 0 (by show 0 < 4; norm_num)
    have h1 := h 1 (by show 1 < 4; norm_num)
    have h2 := h 2 (by show 2 < 4; norm_num)
    have h3 := h 3 (by show 3 < 4; norm_num)
    simp [strip, Poly.fresh, rowVal, Finset.sum_range_succ] at h0 h1 h2 h3
    refine ⟨h0, h1, h2, by linarith⟩
  · rintro ⟨h0, h1, h2, h3⟩
    refine ⟨fun i hi => ?_, fun i hi => absurd hi (by simp [strip, Poly.fresh, Mat.zeros])⟩
    have hi : i < 4 := hi
    interval_cases i <;> simp [strip, Poly.fresh, rowVal, Finset.sum_range_succ]
    · exact h0
    · exact h1
    · exact h2
    · linarith

/-- `x⁺ = x + u` for `-1 ≤ x ≤ 0` and `x⁺ = -x + u + 1` for `0 ≤ x ≤ 1`, with `|u| ≤ 1` -/
noncomputable def hinge : PWA :=
  ⟨1, 1, [⟨⟨1, 1, fun _ _ => 1⟩, ⟨1, 1, fun _ _ => 1⟩, ⟨1, fun _ => 0⟩, 1, 1⟩, ⟨⟨1, 1, fun _ _ => -1⟩, ⟨1, 1, fun _ _ => 1⟩, ⟨1, fun _ => 1⟩, 1, 1⟩],
    [strip (-1) 0, strip 0 1], 2⟩

theorem hinge_pwa : PwaShape hinge :=
  ⟨rfl, rfl, by show 0 < 2; norm_num, fun T hT => by
      simp only [hinge, List.mem_cons, List.not_mem_nil, or_false] at hT
      rcases hT with rfl | rfl <;> exact ⟨⟨rfl, rfl, rfl, rfl, rfl⟩, rfl, rfl⟩, fun D hD => by
      simp only [hinge, List.mem_cons, List.not_mem_nil, or_false] at hD
      rcases hD with rfl | rfl <;> exact ⟨rfl, rfl⟩⟩

theorem hinge_args (N : ℕ) (hN : 0 < N) : HybArgs hinge N one1 one1 one1 interval1 :=
  ⟨hinge_pwa, hN, weights1.symQ, weights1.symP, ⟨rfl, rfl⟩, ⟨rfl, rfl⟩⟩

theorem hinge_dom {j : ℕ} (hj : j < hinge.nm) : ∃ lo hi : ℝ, lo ≤ hi ∧ |lo| ≤ 1 ∧ |hi| ≤ 1 ∧ domAt hinge j = strip lo hi := by
  have hj : j < 2 := hj
  interval_cases j
  · exact ⟨-1, 0, by norm_num, by norm_num, by norm_num, rfl⟩
  · exact ⟨0, 1, by norm_num, by norm_num, by norm_num, rfl⟩

theorem hinge_good : GoodDomains hinge := by
  refine ⟨fun j hj => ?_, fun j hj => ?_, fun j hj => ?_, fun j hj => ?_⟩
  all_goals obtain ⟨lo, hi, h1, h2, h3, e⟩ := hinge_dom hj
  all_goals rw [e]
  · exact ⟨rfl, rfl, rfl, rfl⟩
  · show 0 < 4
    norm_num
  · exact ⟨fun i => if i = 0 then lo else 0, (strip_mem _).2 ⟨by simpa using h1, by simp, by norm_num, by norm_num⟩⟩
  · refine ⟨1, fun w hw k hk => ?_⟩
    obtain ⟨a, b, c, d⟩ := (strip_mem w).1 hw
    have hk : k < 2 := hk
    rw [abs_le] at h2 h3
    interval_cases k
    · exact abs_le.2 ⟨by linarith, by linarith⟩
    · exact abs_le.2 ⟨by linarith, by linarith⟩

/-- C70 on the example: over the domain of the second mode the dynamics of the first ranges from `-1` to `2`, and the inequality `x ≤ 0` is
violated by at most `1` -/
example (L : Lib) (hL : LibSpec L) : ∃ al be ga, get_bigM_dynamics L hinge = .ok (al, be) ∧ get_bigM_domains L hinge = .ok ga ∧
    bm al 0 1 0 = -1 ∧ bm be 0 1 0 = 2 ∧ bm ga 0 1 0 = 1 := by
  obtain ⟨al, be, ga, h1, h2, h3, h4⟩ := C70 L hL hinge hinge_pwa (by show 0 < 1; norm_num) hinge_good
  obtain ⟨a, b⟩ := h3 0 (by show 0 < 2; norm_num) 1 (by show 1 < 2; norm_num) 0 (by show 0 < 1; norm_num)
  have c := h4 0 (by show 0 < 2; norm_num) 1 (by show 1 < 2; norm_num) 0 (by show 0 < 4; norm_num)
  refine ⟨al, be, ga, h1, h2, a.unique ⟨⟨fun _ => 0, fun _ => -1, ?_, ?_⟩, ?_⟩, b.unique ⟨⟨fun _ => 1, fun _ => 1, ?_, ?_⟩, ?_⟩,
    c.unique ⟨⟨fun _ => 1, fun _ => 0, ?_, ?_⟩, ?_⟩⟩
  · exact (strip_mem _).2 (by norm_num [pair, hinge])
  · norm_num [Spec.affine, hinge]
  · rintro v ⟨x, u, hin, rfl⟩
    obtain ⟨h5, h6, h7, h8⟩ := (strip_mem (lo := 0) (hi := 1) _).1 hin
    simp [pair, hinge] at h5 h6 h7 h8
    simp [Spec.affine, hinge]
    linarith
  · exact (strip_mem _).2 (by norm_num [pair, hinge])
  · norm_num [Spec.affine, hinge]
  · rintro v ⟨x, u, hin, rfl⟩
    obtain ⟨h5, h6, h7, h8⟩ := (strip_mem (lo := 0) (hi := 1) _).1 hin
    simp [pair, hinge] at h5 h6 h7 h8
    simp [Spec.affine, hinge]
    linarith
  · exact (strip_mem _).2 (by norm_num [pair, hinge])
  · norm_num [hinge, strip, Poly.fresh, rowVal, pair, Finset.sum_range_succ]
  · rintro v ⟨x, u, hin, rfl⟩
    obtain ⟨h5, h6, h7, h8⟩ := (strip_mem (lo := 0) (hi := 1) _).1 hin
    simp [pair, hinge] at h5 h6 h7 h8
    simp [hinge, strip, Poly.fresh, rowVal, pair, Finset.sum_range_succ]
    linarith

/-- a trajectory through both domains: `-1, 0, 1/2` in the modes `0, 1` with the inputs `1, -1/2` -/
theorem hinge_feas : (hyb hinge 2 one1 one1 one1 interval1).Feas (fun _ => -1) (fun t => t) (fun t _ => if t = 0 then 1 else -1 / 2) := by
  refine ⟨⟨fun t ht => ht, fun t ht => ?_, fun i hi => ?_⟩, fun t ht => ?_, eqHold_of_noEq rfl _⟩
  · have ht : t < 2 := ht
    interval_cases t
    · exact ((strip_mem (lo := -1) (hi := 0) _).2 (by norm_num [pair, hyb, hinge, HybOcp.x, Spec.traj, Spec.affine])).1
    · exact ((strip_mem (lo := 0) (hi := 1) _).2 (by norm_num [pair, hyb, hinge, HybOcp.x, Spec.traj, Spec.affine])).1
  · have hi : i < 2 := hi
    interval_cases i <;> norm_num [hyb, hinge, interval1, Poly.fresh, rowVal, HybOcp.x, Spec.traj, Spec.affine]
  · have ht : t < 2 := ht
    interval_cases t <;> exact eqHold_of_noEq rfl _

theorem hinge_noEq (N : ℕ) : (hyb hinge N one1 one1 one1 interval1).NoEq := by
  refine ⟨fun i hi => ?_, rfl⟩
  obtain ⟨lo, hi, -, -, -, e⟩ := hinge_dom hi
  show (domAt hinge i).C.nr = 0
  rw [e]
  rfl

/-- C72 and C71 on the example: the trajectory has a point in the program, with cost `5/4`; and each point of the program is a trajectory -/
example (L : Lib) (hL : LibSpec L) : ∃ c, HMPC.init L hinge 2 one1 one1 one1 interval1 = .ok c ∧
    (∃ v z d, Binary 4 d ∧ MiFeas c.mpmiqp.Au c.mpmiqp.Az c.mpmiqp.Ad c.mpmiqp.Ax c.mpmiqp.b v z d (fun _ => -1) ∧
      miCost c.mpmiqp.Huu c.mpmiqp.Hzz c.mpmiqp.Hzx c.mpmiqp.Hxx v z (fun _ => -1) = 5 / 4) ∧
    ∀ u z d x, Binary 4 d → MiFeas c.mpmiqp.Au c.mpmiqp.Az c.mpmiqp.Ad c.mpmiqp.Ax c.mpmiqp.b u z d x →
      ∃ m, (hyb hinge 2 one1 one1 one1 interval1).IneqFeas x m (unflat 1 u) := by
  obtain ⟨c, h1, h2, -⟩ := C72 L hL hinge 2 one1 one1 one1 interval1 (hinge_args 2 (by norm_num)) (by show 0 < 1; norm_num) hinge_good
  obtain ⟨v, z, d, -, k1, k2, k3⟩ := h2 _ _ _ hinge_feas
  refine ⟨c, h1, ⟨v, z, d, k1, k2, k3.trans ?_⟩, fun u z d x hb hf => ?_⟩
  · norm_num [HybOcp.cost, hyb, lqCost, one1_quad, hinge, HybOcp.x, Spec.traj, Spec.affine, Finset.sum_range_succ]
  · obtain ⟨m, -, -, k, -⟩ := C71 L _ _ _ _ _ _ (hinge_args 2 (by norm_num)) c h1 x u z d hb hf
    exact ⟨m, k⟩

end Verif.Props
