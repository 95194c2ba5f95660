import Verif.Props.PlotControl
import Verif.Props.PolyhedronBallNone

/- `plot_state_space_partition` with regions without a center (C116). -/
namespace Verif.Props
open Plot Finset

/-- C116, exceptions: if the regions before `cr` can be drawn, `cr` is drawn, and has no center (balls of every size fit in it, C120), then asking for the active sets raises `TypeError`. -/
theorem C116_center (L : Lib) (Q : Qhull) (hv : HullVertices) (c : Control.MPC) (s1 s2 : ExplicitSolution) (cr : CritReg) (hx : c.S.nx = 2)
    (hs : c.explicit_solution = some (s1 ++ cr :: s2)) (h1 : ∀ r ∈ s1, ∃ cmds, (plotRegion L Q hv true (toString r.active_set) r.polyhedron).1 = .ok cmds)
    (cmds : List Cmd) (q : Poly) (h2 : plotPolyhedron L Q hv [0, 1] cr.polyhedron = (.ok cmds, q)) (h3 : (Poly.center L q).1 = .ok none) :
    plot_state_space_partition L Q hv c true = .error .typeError := by
  have e : (plotRegion L Q hv true (toString cr.active_set) cr.polyhedron).1 = .error .typeError := by
    unfold plotRegion
    rw [PyM.bind_ok h2]
    simp only [if_true]
    obtain ⟨q', hq'⟩ : ∃ q', Poly.center L q = (.ok none, q') := ⟨_, Prod.ext h3 rfl⟩
    have e' : centerText L (toString cr.active_set) q = (.error .typeError, q') := by
      unfold centerText
      rw [PyM.bind_ok hq']
      rfl
    rw [PyM.bind_error e']
  unfold plot_state_space_partition
  rw [if_neg (not_not.2 hx), hs]
  have m : ∀ s1 : ExplicitSolution, (∀ r ∈ s1, ∃ cmds, (plotRegion L Q hv true (toString r.active_set) r.polyhedron).1 = .ok cmds) →
      (s1 ++ cr :: s2).mapM (fun cr => (plotRegion L Q hv true (toString cr.active_set) cr.polyhedron).1) = .error .typeError := by
    intro s1
    induction s1 with
    | nil =>
      intro _
      rw [List.nil_append, List.mapM_cons, e]
      rfl
    | cons r s1 ih =>
      intro h
      obtain ⟨a, ha⟩ := h r (by simp)
      rw [List.cons_append, List.mapM_cons, ha, Py.ok_bind, ih fun r hr => h r (by simp [hr])]
      rfl
  show (_ >>= _) = _
  rw [m s1 h1]
  rfl

/-- the half plane `x₀ ≤ 0` -/
def halfPlane : Poly := Poly.fresh ⟨1, 2, fun _ j => if j = 0 then 1 else 0⟩ ⟨1, fun _ => 0⟩ (Mat.zeros 0 2) (Vec.zeros 0)

theorem halfPlane_lp (L : Lib) (hL : LibSpec L) : Poly.chebyshev L halfPlane.A halfPlane.b halfPlane.C halfPlane.d = .ok none := by
  rw [show Poly.chebyshev L halfPlane.A halfPlane.b halfPlane.C halfPlane.d = Poly.chebyshevLP L halfPlane.A halfPlane.b from if_neg (by simp [halfPlane, Poly.fresh, Mat.zeros]),
    Poly.chebyshevLP_eq]
  unfold lpDefault
  obtain ⟨ys, ss, x, r, lam, -, -, -, k5, -, k7⟩ := lp_run_none hL (n := 3) (f := (Vec.zeros halfPlane.A.nc).append (Vec.ones 1))
    (A := halfPlane.A.happ (Poly.rowNorms halfPlane.A).neg) (b := halfPlane.b) rfl rfl rfl (show 0 < 1 by norm_num) 1e-7
  obtain ⟨-, -, b3⟩ := lpRes_bounds k5
  have c0 := b3 0 (show 0 < 3 by norm_num)
  have c2 := b3 2 (show 2 < 3 by norm_num)
  rw [show (halfPlane.A.happ (Poly.rowNorms halfPlane.A).neg).nr = 1 from rfl, Finset.sum_range_one] at c0 c2
  have a0 : (halfPlane.A.happ (Poly.rowNorms halfPlane.A).neg).e 0 0 = 1 := rfl
  have a2 : (halfPlane.A.happ (Poly.rowNorms halfPlane.A).neg).e 0 2 = -1 := by
    show - vnorm (halfPlane.A.row 0) = -1
    have : vnorm (halfPlane.A.row 0) ^ 2 = 1 := by
      rw [vnorm_sq]
      show ∑ j ∈ range 2, (if j = 0 then (1 : ℝ) else 0) ^ 2 = 1
      norm_num [Finset.sum_range_succ]
    rw [show vnorm (halfPlane.A.row 0) = 1 from (pow_eq_one_iff_of_nonneg (Real.sqrt_nonneg _) two_ne_zero).1 this]
  rw [a0, show ((Vec.zeros halfPlane.A.nc : Vec ℝ).append (Vec.ones 1)).e 0 = 0 from rfl] at c0
  rw [a2, show ((Vec.zeros halfPlane.A.nc : Vec ℝ).append (Vec.ones 1)).e 2 = 1 from rfl] at c2
  have hlt : ¬ r < 1e-7 := by
    intro h
    have e1 := abs_le.1 c0
    have e2 := abs_le.1 c2
    norm_num at h
    linarith [e1.2, e2.2]
  rw [if_neg hlt] at k7
  rw [k7]
  rfl

theorem halfPlane_bounded (L : Lib) (hL : LibSpec L) : Poly.bounded L halfPlane = (.ok false, { halfPlane with _empty := some false }) := by
  have hne : Spec.NearPoint 2 halfPlane.A halfPlane.b halfPlane.C halfPlane.d := by
    refine ⟨fun _ => 0, ⟨fun i hi => ?_, fun i hi => absurd hi (Nat.not_lt_zero i)⟩, by norm_num⟩
    simp [halfPlane, Poly.fresh]
  have hp : halfPlane.Inv 2 := ⟨rfl, rfl, rfl, rfl⟩
  rw [Poly.bounded_run hL hp (fun e h => by cases h) rfl ((Poly.computeEmpty_false_iff hL hp (Or.inl (show 0 < 1 by norm_num))).2 hne) (by norm_num), if_pos]
  rw [nullspace_pos_iff hL]
  refine ⟨fun j => if j.val = 0 then 0 else 1, fun h => ?_, ?_⟩
  · have := congrFun h ⟨1, show 1 < 2 by norm_num⟩
    simp at this
  · funext i
    have hi : i.val < 1 := i.2
    rw [Matrix.mulVec, dotProduct]
    refine Finset.sum_eq_zero fun j _ => ?_
    by_cases hj : j.val = 0 <;> simp [hj, Mat.asM, Mat.vapp, halfPlane, Poly.fresh, show i.val = 0 by omega]

/-- C116_center for a single region: a half plane, which is not drawn, because it is not bounded.  Nothing is raised without the active sets. -/
theorem C116_halfPlane (L : Lib) (hL : LibSpec L) (Q : Qhull) (hv : HullVertices) (c : Control.MPC) (cr : CritReg) (hx : c.S.nx = 2)
    (hs : c.explicit_solution = some [cr]) (hp : cr.polyhedron = halfPlane) :
    (∃ cmds, plot_state_space_partition L Q hv c false = .ok cmds ∧ ∀ P, Cmd.patch P ∉ cmds) ∧
      plot_state_space_partition L Q hv c true = .error .typeError := by
  have h2 : plotPolyhedron L Q hv [0, 1] halfPlane = (.ok [], { halfPlane with _empty := some false }) := by
    unfold plotPolyhedron
    have : Poly.vertices L Q halfPlane = (.ok none, { halfPlane with _empty := some false }) := by
      unfold Poly.vertices
      rw [PyM.bind_ok (PyM.get_apply _)]
      show (Poly.bounded L >>= _) _ = _
      rw [PyM.bind_ok (halfPlane_bounded L hL)]
      rfl
    show (Poly.vertices L Q >>= _) _ = _
    rw [PyM.bind_ok this]
    rfl
  constructor
  · have e : (plotRegion L Q hv false (toString cr.active_set) cr.polyhedron).1 = .ok [] := by
      rw [hp]
      unfold plotRegion
      rw [PyM.bind_ok h2]
      rfl
    unfold plot_state_space_partition
    rw [if_neg (not_not.2 hx), hs]
    simp only [List.mapM_cons, List.mapM_nil, e, Py.ok_bind]
    refine ⟨_, rfl, fun P => ?_⟩
    simp
  · refine C116_center L Q hv c [] [] cr hx hs (by simp) [] { halfPlane with _empty := some false } (by rw [hp]; exact h2) ?_
    rw [center_run L rfl, halfPlane_lp L hL]
    rfl

/-- a controller with this region -/
example (L : Lib) (hL : LibSpec L) (Q : Qhull) (hv : HullVertices) (q : MpQP) : plot_state_space_partition L Q hv
    { squareCtrl q with explicit_solution := some [{ squareRegion with polyhedron := halfPlane }] } true = .error .typeError :=
  (C116_halfPlane L hL Q hv _ _ rfl rfl rfl).2

end Verif.Props
