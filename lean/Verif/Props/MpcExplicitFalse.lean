import Verif.Props.MpcExplicit
import Verif.Props.MpcExamples
import Verif.Props.MpQPLoop

/- An explicit model predictive controller that differs from the implicit one. -/
namespace Verif.Props
open Finset Spec Dyn Control MpQP

/-- the neighbours of a region `s x ≤ 0` of the line -/
theorem ray_neighbours {L : Lib} (hL : LibSpec L) {cr : CritReg} (hI : cr.polyhedron.Inv 1) (hnr : cr.polyhedron.A.nr = 1)
    (hC : cr.polyhedron.C.nr = 0) (he : cr.polyhedron._empty = none) (hb : cr.polyhedron.b.e 0 = 0) {s : ℝ}
    (ha : cr.polyhedron.A.e 0 0 = s) (hs : s = 1 ∨ s = -1) :
    ∃ (x : Vec ℝ) (cr' : CritReg), x.n = 1 ∧ x.e 0 = 1e-5 * s ∧ Like cr' cr ∧
      neighbours L 1e-5 cr = .ok ([(x, (symmDiff cr.active_set.toFinset {0}).sort (· ≤ ·))], cr') := by
  obtain ⟨mf, h1, -, h2, h3, h4, h5⟩ := redundancy_run hL hI (.inl (by omega)) (fun e h => by rw [he] at h; cases h)
    ⟨fun _ => 0, ⟨fun i hi => by
        rw [hnr] at hi
        interval_cases i
        simp [hb], fun i hi => by rw [hC] at hi; exact absurd hi (Nat.not_lt_zero i)⟩, by norm_num⟩
    (.inl hC) (tol := 1e-7) (by norm_num)
  have n0 : 0 ∈ mf := by
    by_contra h0
    have := h5 0 (by omega) h0 (fun _ => s) (fun i hi => by rw [hC] at hi; exact absurd hi (Nat.not_lt_zero i)) (fun j hj => by
      have hj2 := h3 j hj
      rw [hnr] at hj2
      interval_cases j
      exact absurd hj h0) (fun j hj hj1 => by omega)
    unfold rowVal at this
    rw [hI.1, Finset.sum_range_one, ha, hb] at this
    rcases hs with rfl | rfl <;> norm_num at this
  have hmf : mf = [0] := by
    have hnd : mf.Nodup := h2.nodup List.nodup_range
    have hall : ∀ i ∈ mf, i = 0 := by
      intro i hi
      have := h3 i hi
      omega
    match mf, n0, hnd, hall with
    | [i], _, _, h => rw [h i (by simp)]
    | i :: j :: l, _, hn, h =>
      have e1 := h i (by simp)
      have e2 := h j (by simp)
      subst e1 e2
      simp at hn
  subst hmf
  have hlike : Like { cr with polyhedron := (Poly.minimal_facets L 1e-7 cr.polyhedron).2 } cr :=
    ⟨_, by rw [minimal_facets_state]; exact empty_sameData L _, rfl⟩
  have hb' : beyondFacet L 1e-5 { cr with polyhedron := (Poly.minimal_facets L 1e-7 cr.polyhedron).2 } 0
      = .ok (((Vec.single (0 / s : ℝ)).add ((cr.polyhedron.A.row 0).smul 1e-5)),
        (symmDiff cr.active_set.toFinset {0}).sort (· ≤ ·)) := by
    rw [h1]
    have hfc : CritReg.facet_center L { cr with polyhedron := { cr.polyhedron with _empty := some false } } 0
        = .ok (some (Vec.single (0 / s : ℝ))) := by
      unfold CritReg.facet_center
      rw [if_pos hI.1]
      show Except.ok (some (Vec.single (cr.polyhedron.b.e 0 / cr.polyhedron.A.e 0 0))) = _
      rw [hb, ha]
    unfold beyondFacet
    have hadd : np.addV (Vec.single (0 / s : ℝ)) ((cr.polyhedron.A.row 0).smul 1e-5) = .ok _ := if_pos hI.1.symm
    simp only at hfc ⊢
    rw [hfc, Py.ok_bind]
    simp only
    rw [hadd, Py.ok_bind]
    rfl
  refine ⟨((Vec.single (0 / s : ℝ)).add ((cr.polyhedron.A.row 0).smul 1e-5)), _, rfl, ?_, hlike, ?_⟩
  · show (Vec.single (0 / s : ℝ)).e 0 + 1e-5 * cr.polyhedron.A.e 0 0 = 1e-5 * s
    rw [ha]
    simp [Vec.single]
  · unfold neighbours
    rw [show (Poly.minimal_facets L 1e-7 cr.polyhedron).1 = .ok (some [0]) by rw [h1], Py.ok_bind]
    simp only [List.mapM_cons, List.mapM_nil, hb']
    rfl

/-- membership in a region `s x ≤ 0` of the line -/
theorem ray_contains {cr : CritReg} (hI : cr.polyhedron.Inv 1) (hnr : cr.polyhedron.A.nr = 1)
    (hC : cr.polyhedron.C.nr = 0) (hb : cr.polyhedron.b.e 0 = 0) {s : ℝ}
    (ha : cr.polyhedron.A.e 0 0 = s) {x : Vec ℝ} (hx : x.n = 1) :
    (s * x.e 0 ≤ 1e-7 → cr.contains x = .ok true) ∧ (1e-7 < s * x.e 0 → cr.contains x = .ok false) := by
  obtain ⟨r, h1, h2, h3⟩ := C08_partial 1 _ hI (by omega) x hx 1e-7
  have e : ∑ j ∈ range 1, cr.polyhedron.A.e 0 j * x.e j - cr.polyhedron.b.e 0 = s * x.e 0 := by
    rw [Finset.sum_range_one, ha, hb, sub_zero]
  constructor
  · intro h
    unfold CritReg.contains
    rw [h1, h2 (fun i hi => ?_) fun i hi => ?_]
    · obtain rfl : i = 0 := by omega
      rw [e]; exact h
    · rw [hC] at hi; exact absurd hi (Nat.not_lt_zero i)
  · intro h
    unfold CritReg.contains
    rw [h1]
    cases r with
    | false => rfl
    | true =>
      have := (h3 rfl).1 0 (by omega)
      rw [e] at this
      linarith

/-- the search on the program `IsClip` stores the region without active constraints first -/
theorem clip_search {L : Lib} (hL : LibSpec L) {q : MpQP} (hm : q.Made) (hd : IsClip q.data) (fuel : ℕ) :
    ∃ c1 c2 : CritReg, q.explicit_solve L (fuel + 3) = .ok (some [c1, c2]) ∧ Like c1 (q.fCr []) ∧ Like c2 (q.fCr [0]) := by
  obtain ⟨⟨a1, a2, a3⟩, b1, b2, b3⟩ := clip_poly hm hd
  have hI : ∀ a, (q.fCr a).polyhedron.Inv 1 := fun a => fCr_inv hd.shape
  have hC : ∀ a, (q.fCr a).polyhedron.C.nr = 0 := fun a => (Props.C07 1 _ (fPoly_inv (a := a) hd.shape) 1e-7 (by norm_num)).2.2.1
  obtain ⟨x1, c1, n1, e1, l1, r1⟩ := ray_neighbours hL (hI []) a1 (hC []) rfl a3 a2 (.inl rfl)
  obtain ⟨x2, c2, n2, e2, l2, r2⟩ := ray_neighbours hL (hI [0]) b1 (hC [0]) rfl b3 b2 (.inr rfl)
  have s1 : (symmDiff (q.fCr []).active_set.toFinset {0}).sort (· ≤ ·) = [0] := by
    have : symmDiff (q.fCr []).active_set.toFinset {0} = ({0} : Finset ℕ) := by
      show symmDiff ([] : List ℕ).toFinset {0} = {0}
      simp
    rw [this]; simp
  have s2 : (symmDiff (q.fCr [0]).active_set.toFinset {0}).sort (· ≤ ·) = [] := by
    have : symmDiff (q.fCr [0]).active_set.toFinset {0} = (∅ : Finset ℕ) := by
      show symmDiff ([0] : List ℕ).toFinset {0} = ∅
      simp
    rw [this]; simp
  rw [s1] at r1
  rw [s2] at r2
  have hfx : q.fx.n = 1 := hd.shape.fx
  have point : ∀ (a : List ℕ) (x : Vec ℝ), a = [] ∨ a = [0] → x.n = 1 → (q.fCr a).contains x = .ok true →
      q.explicit_solve_given_point L x (some a) = .ok (some (q.fCr a)) := fun a x ha hx h =>
    (C44_partial L hL 1 1 q hm hd.shape one_pos (by have : q.Au.nr = 1 := hd.nr; omega) x hx).1 a _ (clip_run hm hd a ha) h
  have p0 := point [] (Vec.zeros q.fx.n) (.inl rfl) hfx
    ((ray_contains (hI []) a1 (hC []) a3 a2 (x := Vec.zeros q.fx.n) hfx).1 (by simp [Vec.zeros]; norm_num))
  have p1 := point [0] x1 (.inr rfl) n1 ((ray_contains (hI [0]) b1 (hC [0]) b3 b2 n1).1 (by rw [e1]; norm_num))
  have o1 : c1.contains x1 = .ok false := by
    rw [l1.contains]
    exact (ray_contains (hI []) a1 (hC []) a3 a2 n1).2 (by rw [e1]; norm_num)
  have o2 : c1.contains x2 = .ok true := by
    rw [l1.contains]
    exact (ray_contains (hI []) a1 (hC []) a3 a2 n2).1 (by rw [e2]; norm_num)
  have o3 : ∃ r, c2.contains x2 = .ok r := by
    rw [l2.contains]
    exact ⟨_, (ray_contains (hI [0]) b1 (hC [0]) b3 b2 n2).2 (by rw [e2]; norm_num)⟩
  refine ⟨c1, c2, ?_, l1, l2⟩
  have u0 : uncovered [] [(Vec.zeros q.fx.n, [])] = .ok [(Vec.zeros q.fx.n, [])] := rfl
  have u1 : uncovered [c1] [(x1, [0])] = .ok [(x1, [0])] := by
    have hcov : covered [c1] x1 = .ok false := by
      unfold covered
      simp only [List.mapM_cons, List.mapM_nil, o1]
      rfl
    show (covered [c1] x1 >>= fun c => _) = _
    rw [hcov]
    rfl
  have u2 : uncovered [c1, c2] [(x2, [])] = .ok [] := by
    obtain ⟨r, o3⟩ := o3
    have hcov : covered [c1, c2] x2 = .ok true := by
      unfold covered
      simp only [List.mapM_cons, List.mapM_nil, o2, o3]
      rfl
    show (covered [c1, c2] x2 >>= fun c => _) = _
    rw [hcov]
    rfl
  unfold explicit_solve explore
  rw [u0, Py.ok_bind]
  simp only
  rw [p0, Py.ok_bind]
  simp only
  rw [r1, Py.ok_bind]
  simp only [List.nil_append]
  unfold explore
  rw [u1, Py.ok_bind]
  simp only
  rw [p1, Py.ok_bind]
  simp only
  rw [r2, Py.ok_bind]
  simp only [List.nil_append]
  unfold explore
  rw [show ([c1] ++ [c2] : List CritReg) = [c1, c2] from rfl, u2, Py.ok_bind]
  rfl

/-! ### the controller -/

/-- `x⁺ = -2 x + u` -/
def turner : LinearSystem := ⟨⟨1, 1, fun _ _ => -2⟩, one1, 1, 1, none⟩

/-- `50` -/
def fifty1 : Mat ℝ := ⟨1, 1, fun _ _ => 50⟩

/-- `u ≤ 0` -/
def noPush : Poly := Poly.fresh ⟨1, 2, fun _ j => if j = 0 then 0 else 1⟩ ⟨1, fun _ => 0⟩ (Mat.zeros 0 2) (Vec.zeros 0)

theorem fifty1_quad (x : ℕ → ℝ) : quad fifty1 x = 50 * x 0 ^ 2 := by
  simp [quad, fifty1]; ring

theorem turner_args : MpcArgs turner 1 (Mat.zeros 1 1) fifty1 fifty1 noPush line1 := by
  refine ⟨⟨⟨rfl, rfl, rfl, rfl, rfl⟩, one_pos, ⟨⟨rfl, rfl, fun _ _ _ _ => rfl⟩, ⟨rfl, rfl, fun _ _ _ _ => rfl⟩, ⟨rfl, rfl, fun _ _ _ _ => rfl⟩,
      fun x => by simp [quad, Mat.zeros], fun x => by rw [fifty1_quad]; positivity, ?_⟩, ⟨rfl, rfl⟩, ⟨rfl, rfl⟩⟩, .inl one_pos⟩
  rintro x ⟨i, hi, hx⟩
  obtain rfl : i = 0 := by have : i < 1 := hi; omega
  rw [fifty1_quad]
  positivity

theorem turner_cost (x : ℕ → ℝ) (u : ℕ → ℕ → ℝ) : (problem turner 1 (Mat.zeros 1 1) fifty1 fifty1 noPush line1).cost x u
    = 25 * u 0 0 ^ 2 + 25 * (u 0 0 - 2 * x 0) ^ 2 := by
  rw [LinOcp.cost_eq]
  simp only [problem, LinOcp.stageCost, fifty1_quad, Finset.sum_range_one]
  have e : LinOcp.x ⟨turner.nx, turner.nu, 1, turner.A, turner.B, Mat.zeros 1 1, fifty1, fifty1, noPush.A, noPush.b, line1.A, line1.b⟩ x u 1 0
      = u 0 0 - 2 * x 0 := by
    simp [LinOcp.x, traj, Spec.affine, turner, one1]; ring
  rw [e]
  simp [quad, Mat.zeros]
  ring

theorem turner_feas (x : ℕ → ℝ) (u : ℕ → ℕ → ℝ) :
    (problem turner 1 (Mat.zeros 1 1) fifty1 fifty1 noPush line1).Feas x u ↔ u 0 0 ≤ 0 := by
  have e : rowVal noPush.A 0 (pair 1 x (u 0)) = u 0 0 := by
    simp [noPush, Poly.fresh, rowVal, pair, Finset.sum_range_succ]
  constructor
  · intro h
    have h1 := h.1 0 one_pos 0 (by show 0 < 1; omega)
    change rowVal noPush.A 0 (pair 1 x (u 0)) ≤ 0 at h1
    rwa [e] at h1
  · intro h
    refine ⟨fun t ht i hi => ?_, fun i hi => absurd hi (Nat.not_lt_zero i)⟩
    obtain rfl : t = 0 := by have : t < 1 := ht; omega
    obtain rfl : i = 0 := by have : i < 1 := hi; omega
    show rowVal noPush.A 0 (pair 1 x (u 0)) ≤ 0
    rwa [e]

theorem turner_clip : ∃ q, MPC.init turner 1 (Mat.zeros 1 1) fifty1 fifty1 noPush line1
      = .ok ⟨turner, 1, Mat.zeros 1 1, fifty1, fifty1, noPush, line1, none, q⟩ ∧ q.Made ∧ IsClip q.data := by
  obtain ⟨q, h1, hm, hs, -, hC, -⟩ := init_run turner_args.toMpcSizes
  refine ⟨q, h1, hm, ?_⟩
  have hs : q.data.Shape 1 1 := hs
  have hC : ∀ x v : ℕ → ℝ, q.data.cost 1 1 v x = 25 * v 0 ^ 2 + 25 * (v 0 - 2 * x 0) ^ 2 := fun x v => by
    rw [show q.data.cost 1 1 v x = _ from hC x v, turner_cost]
    rfl
  -- the constraints
  have hdat : q.Au.nr = 1 ∧ q.Au.e 0 0 = 1 ∧ q.Ax.e 0 0 = 0 ∧ q.b.e 0 = 0 := by
    unfold MPC.init MPC.condense_program at h1
    obtain ⟨q', h20, h1⟩ := Py.bind_eq_ok h1
    cases h1
    obtain ⟨Sa, h3, h21⟩ := Py.bind_eq_ok h20
    obtain ⟨Sp, h4, h2⟩ := Py.bind_eq_ok h21
    have hSa : Sa = ⟨turner.A, turner.B, Vec.zeros turner.nx, turner.nx, turner.nu⟩ := by
      unfold AffineSystem.init at h3
      rw [check_ok' turner_args.sys, Py.ok_bind] at h3
      exact (Except.ok.inj h3).symm
    subst hSa
    have hSp : Sp.domains = [noPush] ∧ Sp.nx = 1 := by
      have : PWA.init [.aff ⟨turner.A, turner.B, Vec.zeros turner.nx, turner.nx, turner.nu⟩] [noPush]
        = .ok ⟨1, 1, [⟨turner.A, turner.B, Vec.zeros turner.nx, turner.nx, turner.nu⟩], [noPush], 1⟩ := rfl
      rw [this] at h4
      rw [← Except.ok.inj h4]
      exact ⟨rfl, rfl⟩
    unfold condense_optimal_control_problem at h2
    obtain ⟨w, h5, g1⟩ := Py.bind_eq_ok h2
    obtain ⟨A_bar, B_bar, c_bar⟩ := w
    simp only at g1
    obtain ⟨w, h6, g2⟩ := Py.bind_eq_ok g1
    obtain ⟨Huu, Hux, Hxx, fu', fx', g⟩ := w
    simp only at g2
    obtain ⟨Ds, h7, g3⟩ := Py.bind_eq_ok g2
    have hDs : Ds = [noPush] := by
      rw [hSp.1] at h7
      exact (Except.ok.inj h7).symm
    rw [hDs, hSp.2] at g3
    obtain ⟨w, h8, g4⟩ := Py.bind_eq_ok g3
    obtain ⟨Au, Ax, b⟩ := w
    simp only at g4
    unfold MpQP.init at g4
    obtain ⟨inv, -, g5⟩ := Py.bind_eq_ok g4
    have hq := Except.ok.inj g5
    clear h2 g1 g2 g3 g4 g5 h5 h6 h7
    unfold condenseConstr at h8
    obtain ⟨G_bar, k1, h80⟩ := Py.bind_eq_ok h8
    obtain ⟨h_bar, k2, h81⟩ := Py.bind_eq_ok h80
    obtain ⟨FB, k3, h82⟩ := Py.bind_eq_ok h81
    obtain ⟨Au', k4, h83⟩ := Py.bind_eq_ok h82
    obtain ⟨Ax', k5, h84⟩ := Py.bind_eq_ok h83
    obtain ⟨Fc, k6, h85⟩ := Py.bind_eq_ok h84
    obtain ⟨b', k7, h86⟩ := Py.bind_eq_ok h85
    clear h8 h80 h81 h82 h83 h84 h85
    have e8 := Except.ok.inj h86
    clear h86
    cases e8
    subst hq
    have hF : ∀ j, (np.block_diag ([noPush].map (fun D => D.A.colsTo 1) ++ [line1.A])).e 0 j = 0 := by
      intro j
      have : ∀ w : ℝ, (if (0 : ℕ) < 1 then if j < 1 then (if j = 0 then (0 : ℝ) else 1) else 0 else w) = 0 := by
        intro w
        rw [if_pos one_pos]
        split
        · rw [if_pos (by omega)]
        · rfl
      exact this 0
    have hz : ∀ M : Mat ℝ, ((np.block_diag ([noPush].map (fun D => D.A.colsTo 1) ++ [line1.A])).mul M).e 0 0 = 0 := by
      intro M
      show ∑ k ∈ range _, _ * _ = _
      exact Finset.sum_eq_zero fun k _ => by rw [hF, zero_mul]
    have hz' : ∀ v : Vec ℝ, ((np.block_diag ([noPush].map (fun D => D.A.colsTo 1) ++ [line1.A])).mulVec v).e 0 = 0 := by
      intro v
      show ∑ k ∈ range _, _ * _ = _
      exact Finset.sum_eq_zero fun k _ => by rw [hF, zero_mul]
    have g1 := Except.ok.inj k1
    have g2 := Except.ok.inj k2
    unfold np.dotMM at k3 k5
    unfold np.addM at k4
    unfold np.dotMV at k6
    unfold np.subV at k7
    split at k3 <;> [skip; cases k3]
    have g3 := Except.ok.inj k3
    subst g1 g2 g3
    have hcols : ((np.block_diag ([noPush].map (fun D => D.A.colsTo 1) ++ [line1.A])).mul B_bar).nc = 1 := by
      by_contra hne
      have hAu : Au.nc = 1 := hs.Au
      rw [if_neg fun h => hne h.2.symm] at k4
      unfold np.broadcastM at k4
      have a1 : ∀ n, n ≠ 1 → np.axisSize 1 n = some n := fun n hn => by
        unfold np.axisSize
        rw [if_neg (by omega), if_pos rfl]
      have a2 := a1 _ hne
      split at k4
      · rename_i m n hm' hn'
        have hn'' : np.axisSize 1 ((np.block_diag ([noPush].map (fun D => D.A.colsTo 1) ++ [line1.A])).mul B_bar).nc = some n := hn'
        rw [a2] at hn''
        rw [← Except.ok.inj k4] at hAu
        exact hne ((Option.some.inj hn'').trans hAu)
      · cases k4
    rw [if_pos ⟨rfl, hcols.symm⟩] at k4
    split at k5 <;> [skip; cases k5]
    split at k6 <;> [skip; cases k6]
    rw [if_pos (by rw [← Except.ok.inj k6]; rfl)] at k7
    have g4 := Except.ok.inj k4
    have g5 := Except.ok.inj k5
    have g6 := Except.ok.inj k6
    have g7 := Except.ok.inj k7
    subst g4 g5 g6 g7
    refine ⟨rfl, ?_, hz _, ?_⟩
    · show (1 : ℝ) + ((np.block_diag ([noPush].map (fun D => D.A.colsTo 1) ++ [line1.A])).mul B_bar).e 0 0 = 1
      rw [hz, add_zero]
    · show (0 : ℝ) - ((np.block_diag ([noPush].map (fun D => D.A.colsTo 1) ++ [line1.A])).mulVec c_bar).e 0 = 0
      rw [hz', sub_zero]
  obtain ⟨d1, d2, d3, d4⟩ := hdat
  have hlin : q.Huu.e 0 0 = 100 ∧ q.Hux.e 0 0 = -100 ∧ q.fu.e 0 = 0 := by
    have hv := fun v x : ℝ => hC (fun _ => x) (fun _ => v)
    simp only [ParamQP.cost, Finset.sum_range_one] at hv
    have a := hv 0 0
    have b := hv 1 0
    have c := hv (-1) 0
    have d := hv 0 1
    have e := hv 1 1
    have e1 : q.data.Huu.e 0 0 = 100 := by linarith
    have e2 : q.data.Hux.e 0 0 = -100 := by linarith
    have e3 : q.data.fu.e 0 = 0 := by linarith
    exact ⟨e1, e2, e3⟩
  obtain ⟨l1, l2, l3⟩ := hlin
  refine ⟨hs, d1, fun u x => ?_, fun u x p => ?_, d4⟩
  · show ∑ j ∈ range 1, q.Au.e 0 j * u j + ∑ j ∈ range 1, q.Ax.e 0 j * x j = u 0
    rw [Finset.sum_range_one, Finset.sum_range_one, d2, d3]; ring
  · show ∑ k ∈ range 1, q.Huu.e 0 k * u k + ∑ k ∈ range 1, q.Hux.e 0 k * x k + q.fu.e 0
      + ∑ i ∈ range q.Au.nr, p i * q.Au.e i 0 = _
    rw [d1, Finset.sum_range_one, Finset.sum_range_one, Finset.sum_range_one, l1, l2, l3, d2]; ring

/-- C66 is false: a controller whose explicit solution is computed (with any fuel from 3 on) and contains `x`, and whose explicit input at
`x` is not even feasible, while `feedforward(x)` returns the optimal input. -/
theorem C66_false (L : Lib) (hL : LibSpec L) : ∃ (S : LinearSystem) (N : ℕ) (Q R P : Mat ℝ) (D X_N : Poly) (c : MPC) (x : Vec ℝ),
    MpcArgs S N Q R P D X_N ∧ MPC.init S N Q R P D X_N = .ok c ∧ x.n = S.nx ∧
    ∀ fuel ≥ 3, ∃ (c' : MPC) (sol : ExplicitSolution), c.store_explicit_solution L fuel = .ok (some c') ∧ c'.explicit_solution = some sol ∧
      (∃ cr ∈ sol, cr.contains x = .ok true) ∧
      ∃ us V us' V', c'.feedforward_explicit x = .ok (some us, some V) ∧ c'.feedforward L x = .ok (some us', some V') ∧
        ¬ (problem S N Q R P D X_N).Feas x.e (inputsOf us) ∧ (problem S N Q R P D X_N).Opt x.e (inputsOf us') ∧ V ≠ V' := by
  obtain ⟨q, h1, hm, hd⟩ := turner_clip
  set x : Vec ℝ := ⟨1, fun _ => 5e-8⟩ with hx
  refine ⟨turner, 1, Mat.zeros 1 1, fifty1, fifty1, noPush, line1, _, x, turner_args, h1, rfl, fun fuel hf => ?_⟩
  obtain ⟨f, rfl⟩ : ∃ f, fuel = f + 3 := ⟨fuel - 3, by omega⟩
  obtain ⟨c1, c2, r, l1, l2⟩ := clip_search hL hm hd f
  obtain ⟨n1, u, n2, n3⟩ := clip_near hm hd
  have hst : (⟨turner, 1, Mat.zeros 1 1, fifty1, fifty1, noPush, line1, none, q⟩ : MPC).store_explicit_solution L (f + 3)
      = .ok (some ⟨turner, 1, Mat.zeros 1 1, fifty1, fifty1, noPush, line1, some [c1, c2], q⟩) := by
    unfold MPC.store_explicit_solution
    simp only
    rw [r]
    rfl
  have hcont : c1.contains x = .ok true := by rw [l1.contains]; exact n1
  refine ⟨_, [c1, c2], hst, rfl, ⟨c1, by simp, hcont⟩, ?_⟩
  obtain ⟨-, c, k1, k2⟩ := C66_partial L hL _ _ _ _ _ _ _ turner_args
  rw [h1] at k1
  cases k1
  obtain ⟨sol, e1, e2⟩ := k2 _ _ _ hst
  have e1' : sol = [c1, c2] := by
    have := congrArg MPC.explicit_solution e1
    simpa using this.symm
  subst e1'
  rcases e2 x rfl with ⟨no, -⟩ | ⟨i, cr, -, -, -, us, V, g1, g2, g3, g4, -⟩
  · rw [no c1 (by simp)] at hcont; cases hcont
  -- the explicit input
  have hu0 : inputsOf us 0 0 = 5e-8 := by
    have hreg : ExplicitSolution.u [c1, c2] x = .ok (some u) := by
      unfold ExplicitSolution.u ExplicitSolution.withRegion
      have : ExplicitSolution.get_critical_region x [c1, c2] = .ok (some c1) := by
        show (c1.contains _ >>= fun b => _) = _
        rw [hcont]
        rfl
      rw [this, Py.ok_bind]
      simp only [l1.u]
      rw [show (q.fCr []).u x = .ok u from n2]
      rfl
    unfold MPC.feedforward_explicit at g1
    simp only [hreg, Py.ok_bind] at g1
    obtain ⟨v, -, g1⟩ := Py.bind_eq_ok g1
    have := congrArg Prod.fst (Except.ok.inj g1)
    simp only [Option.map_some, Option.some.injEq] at this
    rw [← this]
    show u.e (0 + 0) = 5e-8
    exact n3
  obtain ⟨c, k1, k3⟩ := C64_partial L hL _ _ _ _ _ _ _ turner_args
  rw [h1] at k1
  cases k1
  obtain ⟨m1, -, m2⟩ := k3 x rfl
  obtain ⟨us', V', m3⟩ := m2 ⟨fun _ _ => 0, (turner_feas _ _).2 le_rfl, by rw [turner_cost]; norm_num⟩
  rw [m3] at m1
  rcases m1 with m1 | ⟨us'', V'', m1, m4, m5, m6, m7, m8⟩
  · cases m1
  cases m1
  have hopt : (problem turner 1 (Mat.zeros 1 1) fifty1 fifty1 noPush line1).Opt x.e fun _ _ => 0 := by
    refine ⟨(turner_feas _ _).2 le_rfl, fun u' hu' => ?_⟩
    rw [turner_cost, turner_cost]
    have := (turner_feas _ _).1 hu'
    show 25 * (0 : ℝ) ^ 2 + 25 * (0 - 2 * 5e-8) ^ 2 ≤ 25 * u' 0 0 ^ 2 + 25 * (u' 0 0 - 2 * 5e-8) ^ 2
    nlinarith
  have hz := m8 _ hopt 0 one_pos 0 one_pos
  refine ⟨us, V, us', V', g1, m3, fun h => ?_, m6, fun h => ?_⟩
  · have := (turner_feas _ _).1 h
    rw [hu0] at this
    norm_num at this
  · rw [g4, m7, turner_cost, turner_cost, ← hz, hu0, show x.e 0 = 5e-8 from rfl] at h
    norm_num at h

end Verif.Props
