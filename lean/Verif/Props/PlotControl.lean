import Verif.Props.PlotPoly
import Verif.Props.Plot
import Verif.Props.FeasibleSet

/- The plots of the explicit solution. -/
namespace Verif
open Finset
namespace Plot

theorem pyMax_ok {l : List ℝ} (h : l ≠ []) : ∃ m, pyMax l = .ok m ∧ m ∈ l ∧ ∀ a ∈ l, a ≤ m := by
  obtain ⟨a, l, rfl⟩ := List.exists_cons_of_ne_nil h
  refine ⟨l.foldl max a, rfl, ?_⟩
  clear h
  induction l generalizing a with
  | nil => simp
  | cons b l ih =>
    obtain ⟨h1, h2⟩ := ih (max a b)
    rw [List.foldl_cons]
    refine ⟨?_, fun c hc => ?_⟩
    · rcases List.mem_cons.1 h1 with h | h
      · rw [h]
        rcases max_choice a b with e | e <;> rw [e] <;> simp
      · exact List.mem_cons_of_mem _ (List.mem_cons_of_mem _ h)
    · have h3 := h2 (max a b) (by simp)
      rcases List.mem_cons.1 hc with rfl | hc
      · exact (le_max_left _ _).trans h3
      rcases List.mem_cons.1 hc with rfl | hc
      · exact (le_max_right _ _).trans h3
      · exact h2 c (List.mem_cons_of_mem _ hc)

theorem pyMin_ok {l : List ℝ} (h : l ≠ []) : ∃ m, pyMin l = .ok m ∧ m ∈ l ∧ ∀ a ∈ l, m ≤ a := by
  obtain ⟨a, l, rfl⟩ := List.exists_cons_of_ne_nil h
  refine ⟨l.foldl min a, rfl, ?_⟩
  clear h
  induction l generalizing a with
  | nil => simp
  | cons b l ih =>
    obtain ⟨h1, h2⟩ := ih (min a b)
    rw [List.foldl_cons]
    refine ⟨?_, fun c hc => ?_⟩
    · rcases List.mem_cons.1 h1 with h | h
      · rw [h]
        rcases min_choice a b with e | e <;> rw [e] <;> simp
      · exact List.mem_cons_of_mem _ (List.mem_cons_of_mem _ h)
    · have h3 := h2 (min a b) (by simp)
      rcases List.mem_cons.1 hc with rfl | hc
      · exact h3.trans (min_le_left _ _)
      rcases List.mem_cons.1 hc with rfl | hc
      · exact h3.trans (min_le_right _ _)
      · exact h2 c (List.mem_cons_of_mem _ hc)

theorem linspace_getD (a b : ℝ) (n : ℕ) {k : ℕ} (h : k < n) : (linspace a b n).getD k 0 = a + k * ((b - a) / (n - 1)) := by
  unfold linspace
  rw [List.getD_eq_getElem?_getD, List.getElem?_map, List.getElem?_range h]
  rfl

/-- the entries of the grid in the order of `np.ravel` -/
theorem ravel_get {M : Mat ℝ} {r c : ℕ} (hr : r < M.nr) (hc : c < M.nc) : (ravel M)[r * M.nc + c]? = some (M.e r c) := by
  have hlt : r * M.nc + c < M.nr * M.nc := calc
    r * M.nc + c < r * M.nc + M.nc := by omega
    _ = (r + 1) * M.nc := by ring
    _ ≤ M.nr * M.nc := Nat.mul_le_mul_right _ hr
  unfold ravel
  rw [List.getElem?_map, List.getElem?_range hlt, Option.map_some, mul_comm r, Nat.mul_add_div (by omega), Nat.div_eq_of_lt hc, Nat.add_zero,
    Nat.mul_add_mod, Nat.mod_eq_of_lt hc]

end Plot

namespace Props
open Plot

theorem not_line_of_thick {S : (ℕ → ℝ) → Prop} (hthick : Spec.Thick 2 S) :
    ¬ ∃ a a' c : ℝ, (a ≠ 0 ∨ a' ≠ 0) ∧ ∀ x, S x → a * x 0 + a' * x 1 = c := by
  rintro ⟨a, a', d, hne', hall⟩
  have h := hthick (fun j => if j = 0 then a else a') d fun x hx => by
    rw [sum_range_succ, sum_range_one]
    simpa using hall x hx
  have h0 := h 0 (by norm_num)
  have h1 := h 1 (by norm_num)
  simp only [if_true, one_ne_zero, if_false] at h0 h1
  rcases hne' with h | h
  · exact h h0
  · exact h h1

/-- C115: `plot_optimal_value_function` raises `ValueError` if the state does not have two components or if there is no explicit solution.  Otherwise,
for a bounded program with a feasible pair of moderate norm, in every run in which the feasible set is found and the value function can be evaluated
on the plane, it draws a closed path that encloses exactly the feasible set, and the level sets of the value function on a grid of equidistant points.
The values are those of the explicit solution at the points of the grid (none outside of the regions); the grid is on the smallest box that contains
the feasible set. -/
theorem C115 (L : Lib) (hL : LibSpec L) (Q : Qhull) (hQ : QhullSpec Q) (hv : HullVertices) (hhv : HullVerticesSpec hv) (rand : List (Vec ℝ) → Vec ℝ)
    (hr : RandSpec rand) (fuel : ℕ) (c : Control.MPC) (res : ℕ) :
    ((c.S.nx ≠ 2 ∨ c.explicit_solution = none) → plot_optimal_value_function L Q hv rand fuel c res = .error .valueError) ∧
    ∀ (s : ExplicitSolution) (nu : ℕ) (F : Poly) (v : ℝ → ℝ → Option ℝ), c.S.nx = 2 → c.explicit_solution = some s →
      c.mpqp.data.Shape nu 2 → (∃ R, ∀ u x, c.mpqp.data.Feas nu 2 u x → (∀ j < nu, |u j| ≤ R) ∧ ∀ j < 2, |x j| ≤ R) → NearFeas nu 2 c.mpqp.data →
      c.mpqp.get_feasible_set L Q rand fuel = .ok (some F) → (∀ x : Vec ℝ, x.n = 2 → s.V x = .ok (v (x.e 0) (x.e 1))) → 2 ≤ res →
      ∃ (path : List (ℝ × ℝ)) (X Y : Mat ℝ) (Z : ℕ → ℕ → Option ℝ),
        plot_optimal_value_function L Q hv rand fuel c res =
          .ok (some [.patch path, .xlabel "$x_1$", .ylabel "$x_2$", .contour X Y Z, .colorbar, .title "$V^*(x)$"]) ∧
        (∀ y, y ∈ Spec.enclosed path ↔ ∃ x, Spec.InPoly F.A F.b F.C F.d x ∧ x 0 = y.1 ∧ x 1 = y.2) ∧
        X.nr = res ∧ X.nc = res ∧ Y.nr = res ∧ Y.nc = res ∧
        (∀ r < res, ∀ k < res, Z r k = v (X.e r k) (Y.e r k)) ∧
        ∃ x0 x1 y0 y1 : ℝ, (∀ r < res, ∀ k < res, X.e r k = x0 + k * ((x1 - x0) / (res - 1)) ∧ Y.e r k = y0 + r * ((y1 - y0) / (res - 1))) ∧
          (∀ x, Spec.InPoly F.A F.b F.C F.d x → (x0 ≤ x 0 ∧ x 0 ≤ x1) ∧ y0 ≤ x 1 ∧ x 1 ≤ y1) ∧
          (∃ x, Spec.InPoly F.A F.b F.C F.d x ∧ x 0 = x0) ∧ (∃ x, Spec.InPoly F.A F.b F.C F.d x ∧ x 0 = x1) ∧
          (∃ x, Spec.InPoly F.A F.b F.C F.d x ∧ x 1 = y0) ∧ ∃ x, Spec.InPoly F.A F.b F.C F.d x ∧ x 1 = y1 := by
  constructor
  · intro h
    unfold plot_optimal_value_function
    by_cases h2 : c.S.nx ≠ 2
    · rw [if_pos h2]
    · rw [if_neg h2, h.resolve_left h2]
  · intro s nu F v h2 hs hsh hbdd hnear hF hV hres
    obtain ⟨hinv, -, hsound, -, -, ⟨vs, hcache, hvs⟩, hthick⟩ := ((C46_partial L hL Q hQ rand hr nu 2 c.mpqp hsh fuel).1 (by norm_num) hbdd hnear).1 F hF
    have hthick := hthick (le_refl _)
    have hbd : Spec.IsBounded 2 F.A F.b F.C F.d := by
      obtain ⟨R, hR⟩ := hbdd
      exact ⟨R, fun x hx => by
        obtain ⟨u, hu⟩ := hsound x hx
        exact (hR u x hu).2⟩
    have hne : ∃ x, Spec.InPoly F.A F.b F.C F.d x := by
      by_contra hno
      have := hthick (fun _ => 1) 0 (fun x hx => absurd ⟨x, hx⟩ hno) 0 (by norm_num)
      norm_num at this
    have hn : ∀ w ∈ vs, w.n = 2 := fun w hw => (hvs.1 w hw).1
    have hrun : Poly.vertices L Q F = (.ok (some vs), F) := by
      unfold Poly.vertices
      rw [PyM.bind_ok (rfl : PyM.get F = (.ok F, F)), hcache]
      rfl
    obtain ⟨path, hpl, -, hpath⟩ := ((C114 L Q hQ hv hhv F).2.2 2 vs F 0 1 hinv hbd hrun hvs (by norm_num) (by norm_num)).1 (not_line_of_thick hthick)
    have hf : (plotPolyhedron L Q hv [0, 1] F).1 = .ok [.patch path, .xlabel "$x_1$", .ylabel "$x_2$"] := congrArg Prod.fst hpl
    have hmem : ∀ w ∈ vs, Spec.InPoly F.A F.b F.C F.d w.e := fun w hw => (hvs.1 w hw).2
    -- the extreme values of the coordinates
    have hext : ∀ j < 2, ∀ (g : ℝ) x, Spec.InPoly F.A F.b F.C F.d x → ∃ w ∈ vs, g * x j ≤ g * w.e j := by
      intro j hj g x hx
      obtain ⟨u, hu, hle⟩ := exists_vertex_max hinv hbd hx fun k => if k = j then g else 0
      obtain ⟨w, hw, hwe⟩ := hvs.2 u hu
      refine ⟨w, hw, ?_⟩
      rw [← hwe j hj]
      simp only [ite_mul, zero_mul] at hle
      rwa [sum_ite_eq' (range 2) j, if_pos (mem_range.2 hj), sum_ite_eq' (range 2) j, if_pos (mem_range.2 hj)] at hle
    have hvne : vs ≠ [] := by
      obtain ⟨x, hx⟩ := hne
      obtain ⟨w, hw, -⟩ := hext 0 (by norm_num) 0 x hx
      intro h; rw [h] at hw; cases hw
    have hcol : ∀ j < 2, (vs.mapM fun w => coord w j) = .ok (vs.map fun w => w.e j) := fun j hj =>
      mapM_ok fun w hw => coord_ok (by rw [hn w hw]; exact hj)
    have hmapne : ∀ j : ℕ, (vs.map fun w : Vec ℝ => w.e j) ≠ [] := fun j h => hvne (List.map_eq_nil_iff.1 h)
    obtain ⟨x1, hx1, mx1, bx1⟩ := pyMax_ok (hmapne 0)
    obtain ⟨x0, hx0, mx0, bx0⟩ := pyMin_ok (hmapne 0)
    obtain ⟨y1, hy1, my1, by1⟩ := pyMax_ok (hmapne 1)
    obtain ⟨y0, hy0, my0, by0⟩ := pyMin_ok (hmapne 1)
    set X : Mat ℝ := (meshgrid (linspace x0 x1 res) (linspace y0 y1 res)).1 with hX
    set Y : Mat ℝ := (meshgrid (linspace x0 x1 res) (linspace y0 y1 res)).2 with hY
    have Xr : X.nr = res := linspace_length y0 y1 res
    have Xc : X.nc = res := linspace_length x0 x1 res
    have Yr : Y.nr = res := linspace_length y0 y1 res
    have Yc : Y.nc = res := linspace_length x0 x1 res
    set zs : List (Option ℝ) := ((ravel X).zip (ravel Y)).map fun p => v p.1 p.2 with hzs
    have hgrid : gridValues s X Y = .ok fun r k => (zs[r * X.nc + k]?).join := by
      unfold gridValues
      rw [show (((ravel X).zip (ravel Y)).mapM fun p => s.V ⟨2, fun j => if j = 0 then p.1 else p.2⟩) = .ok zs from mapM_ok fun p _ => by
        rw [hV _ rfl]; rfl, Py.ok_bind]
      rfl
    have hcont : contourCmd X Y (fun r k => (zs[r * X.nc + k]?).join) = .ok (.contour X Y fun r k => (zs[r * X.nc + k]?).join) :=
      if_neg (by rw [Xr, Xc]; omega)
    refine ⟨path, X, Y, fun r k => (zs[r * X.nc + k]?).join, ?_, hpath, Xr, Xc, Yr, Yc, fun r hr k hk => ?_, x0, x1, y0, y1, fun r hr k hk => ?_, fun x hx => ?_, ?_⟩
    · unfold plot_optimal_value_function
      rw [if_neg (by simp [h2]), hs]
      simp only []
      rw [hF, Py.ok_bind]
      simp only []
      rw [hrun]
      simp only []
      rw [Py.ok_bind, show verticesOf (some vs) = .ok vs from rfl, Py.ok_bind, hcol 0 (by norm_num), Py.ok_bind, hcol 1 (by norm_num), Py.ok_bind, hx1,
        Py.ok_bind, hx0, Py.ok_bind, hy1, Py.ok_bind, hy0, Py.ok_bind, hgrid, Py.ok_bind, hf, Py.ok_bind, hcont, Py.ok_bind]
      rfl
    · have e1 : (ravel X)[r * X.nc + k]? = some (X.e r k) := ravel_get (by omega) (by omega)
      have e2 : (ravel Y)[r * X.nc + k]? = some (Y.e r k) := by
        rw [Xc, ← Yc]
        exact ravel_get (by omega) (by omega)
      have e3 : zs[r * X.nc + k]? = some (v (X.e r k) (Y.e r k)) := by
        rw [hzs, List.getElem?_map, List.getElem?_zip_eq_some (z := (X.e r k, Y.e r k)) |>.2 ⟨e1, e2⟩]
        rfl
      show (zs[r * X.nc + k]?).join = _
      rw [e3]; rfl
    · exact ⟨linspace_getD x0 x1 res hk, linspace_getD y0 y1 res hr⟩
    · have up : ∀ j < 2, ∀ m, (∀ a ∈ vs.map fun w : Vec ℝ => w.e j, a ≤ m) → x j ≤ m := fun j hj m hm => by
        obtain ⟨w, hw, hle⟩ := hext j hj 1 x hx
        have := hm _ (List.mem_map.2 ⟨w, hw, rfl⟩)
        simp only [one_mul] at hle
        exact hle.trans this
      have lo : ∀ j < 2, ∀ m, (∀ a ∈ vs.map fun w : Vec ℝ => w.e j, m ≤ a) → m ≤ x j := fun j hj m hm => by
        obtain ⟨w, hw, hle⟩ := hext j hj (-1) x hx
        have := hm _ (List.mem_map.2 ⟨w, hw, rfl⟩)
        linarith
      exact ⟨⟨lo 0 (by norm_num) _ bx0, up 0 (by norm_num) _ bx1⟩, lo 1 (by norm_num) _ by0, up 1 (by norm_num) _ by1⟩
    · have att : ∀ {j : ℕ} {m : ℝ}, (m ∈ vs.map fun w : Vec ℝ => w.e j) → ∃ x, Spec.InPoly F.A F.b F.C F.d x ∧ x j = m := fun {j m} h => by
        obtain ⟨w, hw, e⟩ := List.mem_map.1 h
        exact ⟨w.e, hmem w hw, e⟩
      exact ⟨att mx0, att mx1, att my0, att my1⟩

/-- C116: `plot_state_space_partition` raises `ValueError` if the state does not have two components or if there is no explicit solution.  Otherwise, if
the critical regions are bounded, not contained in a line, and their vertices are found, it draws one closed path for each region, which encloses
exactly the states of the region.  If it is asked to, it writes the active sets in the centers of the regions. -/
theorem C116 (L : Lib) (Q : Qhull) (hQ : QhullSpec Q) (hv : HullVertices) (hhv : HullVerticesSpec hv) (c : Control.MPC) (active : Bool) :
    ((c.S.nx ≠ 2 ∨ c.explicit_solution = none) → plot_state_space_partition L Q hv c active = .error .valueError) ∧
    ∀ (s : ExplicitSolution) (q : CritReg → Poly) (vs : CritReg → List (Vec ℝ)) (center : CritReg → Vec ℝ), c.S.nx = 2 → c.explicit_solution = some s →
      (∀ cr ∈ s, cr.polyhedron.Inv 2 ∧ Spec.IsBounded 2 cr.polyhedron.A cr.polyhedron.b cr.polyhedron.C cr.polyhedron.d ∧
        Poly.vertices L Q cr.polyhedron = (.ok (some (vs cr)), q cr) ∧
        Spec.Corners 2 (Spec.InPoly cr.polyhedron.A cr.polyhedron.b cr.polyhedron.C cr.polyhedron.d) (vs cr) ∧
        Spec.Thick 2 (Spec.InPoly cr.polyhedron.A cr.polyhedron.b cr.polyhedron.C cr.polyhedron.d) ∧
        (active = true → (Poly.center L (q cr)).1 = .ok (some (center cr)) ∧ (center cr).n = 2)) →
      ∃ (path : CritReg → List (ℝ × ℝ)) (cmds : List Cmd), plot_state_space_partition L Q hv c active = .ok cmds ∧
        (∀ P, Cmd.patch P ∈ cmds ↔ ∃ cr ∈ s, P = path cr) ∧
        (∀ cr ∈ s, ∀ y, y ∈ Spec.enclosed (path cr) ↔
          ∃ x, Spec.InPoly cr.polyhedron.A cr.polyhedron.b cr.polyhedron.C cr.polyhedron.d x ∧ x 0 = y.1 ∧ x 1 = y.2) ∧
        ∀ a b t, Cmd.text a b t ∈ cmds ↔ active = true ∧ ∃ cr ∈ s, a = (center cr).e 0 ∧ b = (center cr).e 1 ∧ t = toString cr.active_set := by
  constructor
  · intro h
    unfold plot_state_space_partition
    by_cases h2 : c.S.nx ≠ 2
    · rw [if_pos h2]
    · rw [if_neg h2, h.resolve_left h2]
  · intro s q vs center h2 hs hall
    have hpath : ∀ cr, ∃ path, cr ∈ s → plotPolyhedron L Q hv [0, 1] cr.polyhedron = (.ok [.patch path, .xlabel "$x_1$", .ylabel "$x_2$"], q cr) ∧
        ∀ y, y ∈ Spec.enclosed path ↔ ∃ x, Spec.InPoly cr.polyhedron.A cr.polyhedron.b cr.polyhedron.C cr.polyhedron.d x ∧ x 0 = y.1 ∧ x 1 = y.2 := by
      intro cr
      by_cases hcr : cr ∈ s
      · obtain ⟨k1, k2, k3, k4, k5, -⟩ := hall cr hcr
        obtain ⟨path, p1, -, p2⟩ := ((C114 L Q hQ hv hhv cr.polyhedron).2.2 2 (vs cr) (q cr) 0 1 k1 k2 k3 k4 (by norm_num) (by norm_num)).1
          (not_line_of_thick k5)
        exact ⟨path, fun _ => ⟨p1, p2⟩⟩
      · exact ⟨[], fun h => absurd h hcr⟩
    choose path hpath using hpath
    set G : CritReg → List Cmd := fun cr => [.patch (path cr), .xlabel "$x_1$", .ylabel "$x_2$"] ++
      if active then [.text ((center cr).e 0) ((center cr).e 1) (toString cr.active_set)] else [] with hG
    have hreg : ∀ cr ∈ s, (plotRegion L Q hv active (toString cr.active_set) cr.polyhedron).1 = .ok (G cr) := by
      intro cr hcr
      obtain ⟨-, -, -, -, -, k7⟩ := hall cr hcr
      obtain ⟨p1, -⟩ := hpath cr hcr
      unfold plotRegion
      rw [PyM.bind_ok p1]
      cases active with
      | false => rfl
      | true =>
        obtain ⟨c1, c2⟩ := k7 rfl
        obtain ⟨q', hq'⟩ : ∃ q', Poly.center L (q cr) = (.ok (some (center cr)), q') := ⟨_, Prod.ext c1 rfl⟩
        have ht : centerText L (toString cr.active_set) (q cr) = (.ok [.text ((center cr).e 0) ((center cr).e 1) (toString cr.active_set)], q') := by
          unfold centerText
          rw [PyM.bind_ok hq']
          have g0 : centerCoord (some (center cr)) 0 = .ok ((center cr).e 0) := coord_ok (by omega)
          have g1 : centerCoord (some (center cr)) 1 = .ok ((center cr).e 1) := coord_ok (by omega)
          rw [g0, g1]
          rfl
        rw [if_pos rfl, PyM.bind_ok ht]
        rfl
    have hmem : ∀ cmd, cmd ∈ (s.map G).flatten ↔ ∃ cr ∈ s, cmd ∈ G cr := fun cmd => by
      rw [List.mem_flatten]
      constructor
      · rintro ⟨l, hl, h⟩
        obtain ⟨cr, hcr, rfl⟩ := List.mem_map.1 hl
        exact ⟨cr, hcr, h⟩
      · rintro ⟨cr, hcr, h⟩
        exact ⟨_, List.mem_map.2 ⟨cr, hcr, rfl⟩, h⟩
    refine ⟨path, (s.map G).flatten, ?_, fun P => ?_, fun cr hcr => (hpath cr hcr).2, fun a b t => ?_⟩
    · unfold plot_state_space_partition
      rw [if_neg (by simp [h2]), hs]
      simp only []
      rw [mapM_ok hreg, Py.ok_bind]
      rfl
    · rw [hmem]
      refine exists_congr fun cr => and_congr_right fun _ => ?_
      rw [hG]
      cases active <;> simp
    · rw [hmem]
      constructor
      · rintro ⟨cr, hcr, h⟩
        rw [hG] at h
        cases active with
        | false => simp at h
        | true =>
          simp only [if_true, List.mem_append, List.mem_cons, List.not_mem_nil, or_false, reduceCtorEq, false_or, Cmd.text.injEq] at h
          exact ⟨rfl, cr, hcr, h⟩
      · rintro ⟨hact, cr, hcr, rfl, rfl, rfl⟩
        refine ⟨cr, hcr, ?_⟩
        rw [hG]
        simp [hact]

/-- an explicit solution with the single region `[-1, 1]²` and the value function `(x₀² + x₁²) / 2 + 1` -/
noncomputable def squareRegion : CritReg :=
  ⟨[3], Mat.zeros 1 2, Vec.zeros 1, Mat.zeros 1 2, Vec.zeros 1, Mat.eye 2, Vec.zeros 2, 1, squareTight 1⟩

/-- a controller with this solution -/
noncomputable def squareCtrl (q : MpQP) : Control.MPC :=
  ⟨⟨Mat.eye 2, Mat.zeros 2 1, 2, 1, none⟩, 1, Mat.eye 2, Mat.eye 1, Mat.eye 2, squareTight 1, squareTight 1, some [squareRegion], q⟩

theorem squareRegion_V (x : Vec ℝ) (hx : x.n = 2) :
    ExplicitSolution.V [squareRegion] x = .ok (if |x.e 0| ≤ 1 + 1e-7 ∧ |x.e 1| ≤ 1 + 1e-7 then some ((x.e 0 ^ 2 + x.e 1 ^ 2) / 2 + 1) else none) := by
  obtain ⟨r, hr, hiff⟩ := contains_iff (squareTight_facts (t := 1) zero_le_one).1 (by show 0 < 5; norm_num) x hx 1e-7
  have hreg : squareRegion.contains x = .ok r := hr
  have hcond : r = true ↔ |x.e 0| ≤ 1 + 1e-7 ∧ |x.e 1| ≤ 1 + 1e-7 := by
    rw [hiff, abs_le, abs_le]
    constructor
    · rintro ⟨h, -⟩
      have h0 := h 0 (by show 0 < 5; norm_num)
      have h1 := h 1 (by show 1 < 5; norm_num)
      have h2 := h 2 (by show 2 < 5; norm_num)
      have h3 := h 3 (by show 3 < 5; norm_num)
      simp [squareTight, Poly.fresh] at h0 h1 h2 h3
      norm_num at h0 h1 h2 h3 ⊢
      refine ⟨⟨?_, ?_⟩, ?_, ?_⟩ <;> linarith
    · rintro ⟨⟨a1, a2⟩, a3, a4⟩
      refine ⟨fun i hi => ?_, fun h => absurd h (by show ¬ 0 < 0; norm_num)⟩
      have hi : i < 5 := hi
      interval_cases i <;> simp [squareTight, Poly.fresh] <;> norm_num at * <;> linarith
  have hV : squareRegion.V x = .ok ((x.e 0 ^ 2 + x.e 1 ^ 2) / 2 + 1) := by
    unfold CritReg.V
    rw [show np.dotVM x squareRegion.Vxx = .ok (Mat.vecMul x squareRegion.Vxx) from if_pos hx, Py.ok_bind,
      show np.dotVV (Mat.vecMul x squareRegion.Vxx) x = .ok ((Mat.vecMul x squareRegion.Vxx).dot x) from if_pos hx.symm, Py.ok_bind,
      show np.dotVV squareRegion.Vx x = .ok (squareRegion.Vx.dot x) from if_pos hx.symm, Py.ok_bind]
    refine congrArg Except.ok ?_
    simp [squareRegion, Mat.vecMul, Vec.dot, Mat.eye, Vec.zeros, hx, sum_range_succ]
    ring
  unfold ExplicitSolution.V ExplicitSolution.withRegion ExplicitSolution.get_critical_region
  rw [hreg, Py.ok_bind]
  cases r with
  | true =>
    rw [if_pos rfl, if_pos (hcond.1 rfl)]
    show (do let a ← squareRegion.V x; return some a) = _
    rw [hV]
    rfl
  | false =>
    rw [if_neg (by simp), if_neg (fun h => by simpa using hcond.2 h)]
    rfl

/-- `C115` for a controller with the program of `C46_false` and this solution: for every resolution the plot is drawn, and it shows the value function on
the square -/
example (L : Lib) (hL : LibSpec L) (Q : Qhull) (hQ : QhullSpec Q) (hv : HullVertices) (hhv : HullVerticesSpec hv) (rand : List (Vec ℝ) → Vec ℝ)
    (hr : RandSpec rand) (fuel : ℕ) (hf : (2 * 10 ^ 8 + 1) ^ 2 < fuel) (res : ℕ) (hres : 2 ≤ res) : ∃ q path X Y Z,
    plot_optimal_value_function L Q hv rand fuel (squareCtrl q) res =
      .ok (some [.patch path, .xlabel "$x_1$", .ylabel "$x_2$", .contour X Y Z, .colorbar, .title "$V^*(x)$"]) ∧
    ∀ r < res, ∀ k < res, Z r k =
      if |X.e r k| ≤ 1 + 1e-7 ∧ |Y.e r k| ≤ 1 + 1e-7 then some ((X.e r k ^ 2 + Y.e r k ^ 2) / 2 + 1) else none := by
  obtain ⟨q, -, h1, h2, h3, h4⟩ := C46_false
  obtain ⟨F, hF⟩ := (h4 L hL Q hQ rand hr).2 fuel hf
  obtain ⟨path, X, Y, Z, k1, -, -, -, -, -, k2, -⟩ := (C115 L hL Q hQ hv hhv rand hr fuel (squareCtrl q) res).2 [squareRegion] 1 F
    (fun a b => if |a| ≤ 1 + 1e-7 ∧ |b| ≤ 1 + 1e-7 then some ((a ^ 2 + b ^ 2) / 2 + 1) else none) rfl rfl h1 h2 h3 hF squareRegion_V hres
  exact ⟨q, path, X, Y, Z, k1, k2⟩

/-- `C116` for this solution: the region is drawn, with the name of its active set if asked for -/
example (L : Lib) (hL : LibSpec L) (Q : Qhull) (hQ : QhullSpec Q) (hv : HullVertices) (hhv : HullVerticesSpec hv) (q : MpQP) (active : Bool) :
    ∃ path cmds, plot_state_space_partition L Q hv (squareCtrl q) active = .ok cmds ∧ Cmd.patch path ∈ cmds ∧
      (∀ y : ℝ × ℝ, y ∈ Spec.enclosed path ↔ |y.1| ≤ 1 ∧ |y.2| ≤ 1) ∧ ((∃ a b t, Cmd.text a b t ∈ cmds) ↔ active = true) := by
  obtain ⟨h1, h2, h3, h4⟩ := squareTight_facts (t := 1) zero_le_one
  obtain ⟨vs, q', k1, k2⟩ := squareTight_vertices L hL Q hQ
  obtain ⟨c, c1, c2, -⟩ := vertices_center hL h1 (h2 L) (Or.inl rfl) rfl rfl rfl h3 h4 (Or.inl rfl) (by show 0 < 2; norm_num) k1
  obtain ⟨path, cmds, p1, p2, p3, p4⟩ := (C116 L Q hQ hv hhv (squareCtrl q) active).2 [squareRegion] (fun _ => q') (fun _ => vs) (fun _ => c) rfl rfl
    (fun cr hcr => by
      obtain rfl := List.mem_singleton.1 hcr
      exact ⟨h1, h4, k1, k2, squareTight_thick, fun _ => ⟨congrArg Prod.fst c1, c2⟩⟩)
  refine ⟨path squareRegion, cmds, p1, (p2 _).2 ⟨_, List.mem_singleton.2 rfl, rfl⟩, fun y => ?_, ?_⟩
  · rw [p3 squareRegion (List.mem_singleton.2 rfl)]
    constructor
    · rintro ⟨x, hx, e0, e1⟩
      have := (squareTight_mem zero_le_one x).1 hx
      rwa [e0, e1] at this
    · intro h
      exact ⟨fun j => if j = 0 then y.1 else y.2, (squareTight_mem zero_le_one _).2 (by simpa using h), by simp, by simp⟩
  · constructor
    · rintro ⟨a, b, t, h⟩
      exact ((p4 a b t).1 h).1
    · intro h
      exact ⟨_, _, _, (p4 _ _ _).2 ⟨h, _, List.mem_singleton.2 rfl, rfl, rfl, rfl⟩⟩

end Props
end Verif
