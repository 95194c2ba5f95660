import Verif.Model.TestMcais
import Verif.Proofs.HybridCondense
import Verif.Props.WellPosedTest
import Verif.Props.McaisInvariant
import Verif.Props.McaisTermination

/- The test of `mcais` (test_discrete_time_systems.py:418-453). -/
namespace Verif.Props
open Finset Spec Dyn TestSuite Filter Topology

/-- the rows of the result of the loop: the ones it started with, and rows of `X.A A^s` -/
theorem loop_rows {L : Lib} {n : ℕ} {A : Mat ℝ} (hA1 : A.nr = n) (hA2 : A.nc = n) {XA : Mat ℝ} {Xb : Vec ℝ} (hX1 : XA.nc = n) (hX2 : Xb.n = XA.nr) :
    ∀ (fuel : ℕ) (O O' : Poly) (t : ℕ), O.Inv n → mcaisLoop L A XA Xb fuel O t = .ok (some O') →
      O'.Inv n ∧ O.A.nr ≤ O'.A.nr ∧ (∀ i < O.A.nr, (∀ x, rowVal O'.A i x = rowVal O.A i x) ∧ O'.b.e i = O.b.e i) ∧
      ∀ i < O'.A.nr, O.A.nr ≤ i → ∃ k s, k < XA.nr ∧ t ≤ s ∧ (∀ x, rowVal O'.A i x = rowVal XA k (orbit A x s)) ∧ O'.b.e i = Xb.e k
  | 0, O, O', t, _, h => by cases h
  | fuel + 1, O, O', t, hO, h => by
    unfold mcaisLoop at h
    obtain ⟨J, hJ, h⟩ := Py.bind_eq_ok h
    obtain ⟨res, hres, h⟩ := Py.bind_eq_ok h
    dsimp only at h
    split_ifs at h with hf
    · cases h
      exact ⟨hO, le_rfl, fun i _ => ⟨fun _ => rfl, rfl⟩, fun i h1 h2 => absurd h1 (by omega)⟩
    · obtain ⟨Jn, hJn, h⟩ := Py.bind_eq_ok h
      obtain ⟨bn, hbn, h⟩ := Py.bind_eq_ok h
      obtain ⟨O1, hO1, h⟩ := Py.bind_eq_ok h
      have hP := power_shape hA1 hA2 t
      unfold np.dotMM at hJ
      rw [if_pos (by rw [hX1, hP.1])] at hJ
      cases hJ
      unfold np.rows at hJn
      unfold np.take at hbn
      split_ifs at hJn with hr
      split_ifs at hbn with hb
      cases hJn
      cases hbn
      rw [runOn_ok] at hO1
      obtain ⟨v, hv, e1, e2, rfl⟩ := (Poly.add_inequality_ok hO _ _ _ _).1 hO1
      cases hv
      have hnc : (XA.mul (np.matrix_power A t)).nc = n := hP.2
      have hsel : (Poly.selectionMatrix n none).nc = n := by simp [Poly.selectionMatrix]
      have hinv : (({ O.deleteAttributes with A := O.A.vapp (((XA.mul (np.matrix_power A t)).rows (newFacets res)).mul (Poly.selectionMatrix n none)), b := O.b.append (Xb.take (newFacets res)) } : Poly)).Inv n :=
        ⟨hO.1, by show O.b.n + _ = O.A.nr + _; rw [hO.2.1]; rfl, hO.2.2.1, hO.2.2.2⟩
      obtain ⟨k1, k2, k3, k4⟩ := loop_rows hA1 hA2 hX1 hX2 fuel _ O' (t + 1) hinv h
      have hnr : (O.A.vapp (((XA.mul (np.matrix_power A t)).rows (newFacets res)).mul (Poly.selectionMatrix n none))).nr = O.A.nr + (newFacets res).length := rfl
      dsimp only at k2 k3 k4
      rw [hnr] at k2 k3 k4
      refine ⟨k1, by omega, fun i hi => ?_, fun i h1 h2 => ?_⟩
      · obtain ⟨q1, q2⟩ := k3 i (by omega)
        refine ⟨fun x => (q1 x).trans (Control.rowVal_vapp_lt hi x), q2.trans ?_⟩
        show (if i < O.b.n then _ else _) = _
        rw [if_pos (by rw [hO.2.1]; exact hi)]
      · by_cases hlt : i < O.A.nr + (newFacets res).length
        · obtain ⟨q1, q2⟩ := k3 i hlt
          obtain ⟨d, rfl⟩ := Nat.exists_eq_add_of_le h2
          have hd : d < (newFacets res).length := by omega
          have hmem : (newFacets res).getD d 0 ∈ newFacets res := by
            rw [List.getD_eq_getElem _ _ hd]
            exact List.getElem_mem hd
          refine ⟨(newFacets res).getD d 0, t, hr _ hmem, le_rfl, fun x => ?_, q2.trans ?_⟩
          · rw [q1, Control.rowVal_vapp_add (by rw [hO.1]; exact hsel.symm)]
            unfold rowVal
            rw [show (((XA.mul (np.matrix_power A t)).rows (newFacets res)).mul (Poly.selectionMatrix n none)).nc = n from hsel, Poly.mulSel _ none e2]
            show ∑ j ∈ range (XA.mul (np.matrix_power A t)).nc, _ = _
            have e : ∀ y, ∑ j ∈ range XA.nc, XA.e ((newFacets res).getD d 0) j * y j = rowVal XA ((newFacets res).getD d 0) y := fun _ => rfl
            rw [e, ← rowVal_congr' _ (fun j hj => rowVal_power hA1 hA2 x t j (by omega)), ← rowVal_mul (by rw [hX1, hP.1])]
            unfold rowVal
            refine Finset.sum_congr rfl fun j hj => ?_
            rw [hnc] at hj
            rw [Poly.sel_none, Poly.getD_range (mem_range.1 hj)]
            rfl
          · show (if O.A.nr + d < O.b.n then _ else _) = _
            rw [if_neg (by rw [hO.2.1]; omega), hO.2.1]
            simp [Vec.take]
        · obtain ⟨k, s, r1, r2, r3, r4⟩ := k4 i h1 (by omega)
          exact ⟨k, s, r1, by omega, r3, r4⟩

/-- the result of `mcais`: the rows before the removal of the redundant ones, and the ones that are kept -/
structure McaisRows (n : ℕ) (A : Mat ℝ) (X O Ob : Poly) (r : List ℕ) : Prop where
  inv : O.Inv n
  noeq : O.C.nr = 0
  hA : O.A = Ob.A.rows r
  hb : O.b = Ob.b.take r
  lt : ∀ i ∈ r, i < Ob.A.nr
  stays : ∀ x, Ob.Mem x ↔ StaysIn X A x
  first : X.A.nr ≤ Ob.A.nr ∧ ∀ i < X.A.nr, (∀ x, rowVal Ob.A i x = rowVal X.A i x) ∧ Ob.b.e i = X.b.e i
  later : ∀ i < Ob.A.nr, X.A.nr ≤ i → ∃ k s, k < X.A.nr ∧ 1 ≤ s ∧ (∀ x, rowVal Ob.A i x = rowVal X.A k (orbit A x s)) ∧ Ob.b.e i = X.b.e k
  kept : ∀ i ∈ r, ∃ x, (∀ j ∈ r, j ≠ i → rowVal Ob.A j x ≤ Ob.b.e j) ∧ Ob.b.e i + 1e-7 ≤ rowVal Ob.A i x
  removed : ∀ i < Ob.A.nr, i ∉ r → ∀ x, (∀ j < Ob.A.nr, j ≠ i → rowVal Ob.A j x ≤ Ob.b.e j) → rowVal Ob.A i x < Ob.b.e i + 1e-7

theorem mcais_rows {L : Lib} (hL : LibSpec L) {n : ℕ} {A : Mat ℝ} {X O : Poly} (hd : McaisData L n A X) {fuel : ℕ} (h : mcais L A X fuel = .ok (some O)) :
    ∃ Ob r, McaisRows n A X O Ob r := by
  have h' := h
  unfold mcais at h
  obtain ⟨B, hB, h⟩ := Py.bind_eq_ok h
  cases B with
  | none => cases h
  | some Ob =>
    obtain ⟨q, hq, h⟩ := Py.bind_eq_ok h
    cases h
    have hB' := hB
    unfold mcaisBefore at hB
    obtain ⟨X', hX', hB⟩ := Py.bind_eq_ok hB
    have hs := checks_state hL hd hX'
    rcases before_ok hL hd hX' fuel with ⟨k, -⟩ | ⟨O2, t, k1, k2, k3, k4, k5, k6, k7, k8⟩
    · rw [hB'] at k
      cases k
    · rw [hB'] at k1
      cases k1
      obtain ⟨l1, l2, l3, l4⟩ := loop_rows (L := L) hd.nr hd.nc hd.inv.1 hd.inv.2.1 fuel X' Ob 1 (by unfold Poly.Inv; rw [hs.1, hs.2.1, hs.2.2.1, hs.2.2.2.1]; exact hd.inv) hB
      rw [hs.1] at l2 l3 l4
      rw [hs.2.1] at l3
      have hz : ∀ t, orbit A (fun _ => 0) t = fun _ => 0 := by
        intro t
        induction t with
        | zero => rfl
        | succ t ih => funext i; rw [orbit, ih]; simp
      have h0 : Ob.Mem fun _ => 0 := (k8 _).2 fun t => by rw [hz]; exact hd.origin
      obtain ⟨r, -, r2, r3, r4, r5, r6⟩ := redundancy_run hL k2 (Poly.hasRows_of_bounded hd.pos ⟨hd.bounded.choose, fun x hx => hd.bounded.choose_spec x ((k8 x).1 hx 0)⟩) k4 (near_zero h0) (.inl k3) (tol := 1e-7) (by norm_num)
      rw [runOn_ok, r2 rfl] at hq
      have hq' := (Prod.mk.inj hq).2
      subst hq'
      refine ⟨Ob, r, ⟨⟨k2.1, rfl, k2.2.2.1, k2.2.2.2⟩, k3, rfl, rfl, r4, k8, ⟨l2, l3⟩, l4, fun i hi => ?_, fun i hi hir x hx => ?_⟩⟩
      · obtain ⟨x, -, q2, -, q4⟩ := r5 i hi
        exact ⟨x, q2, q4⟩
      · exact r6 i hi hir x (fun j hj => by omega) (fun j hj => hx j (r4 j hj) fun e => hir (e ▸ hj)) (fun j hj hij => hx j hj (by omega))

/-- the norm of the first `n` entries -/
noncomputable def norm2 (n : ℕ) (z : ℕ → ℝ) : ℝ := Real.sqrt (∑ i ∈ range n, z i ^ 2)

/-- the answer of `contains` for a polyhedron with all bounds equal to one -/
theorem unit_contains {n : ℕ} {p : Poly} (hp : p.Inv n) (hA : 0 < p.A.nr) (hC : p.C.nr = 0) (hb : ∀ i < p.A.nr, p.b.e i = 1) (x : Vec ℝ) (hx : x.n = n) :
    ∃ r, p.contains x = .ok r ∧ (r = true ↔ p.Mem fun i => x.e i / (1 + 1e-7)) := by
  obtain ⟨r, h1, h2⟩ := contains_iff hp hA x hx 1e-7
  refine ⟨r, h1, h2.trans ?_⟩
  rw [mem_noeq hC]
  constructor
  · rintro ⟨h, -⟩ i hi
    have := h i hi
    rw [hb i hi] at this ⊢
    have e : rowVal p.A i (fun i => x.e i / (1 + 1e-7)) = (∑ j ∈ range n, p.A.e i j * x.e j) / (1 + 1e-7) := by
      unfold rowVal
      rw [hp.1, Finset.sum_div]
      exact Finset.sum_congr rfl fun j _ => mul_div_assoc' _ _ _
    rw [e, div_le_one (by norm_num)]
    linarith
  · intro h
    refine ⟨fun i hi => ?_, fun h0 => absurd h0 (by omega)⟩
    have := h i hi
    rw [hb i hi] at this ⊢
    have e : rowVal p.A i (fun i => x.e i / (1 + 1e-7)) = (∑ j ∈ range n, p.A.e i j * x.e j) / (1 + 1e-7) := by
      unfold rowVal
      rw [hp.1, Finset.sum_div]
      exact Finset.sum_congr rfl fun j _ => mul_div_assoc' _ _ _
    rw [e, div_le_one (by norm_num)] at this
    linarith

/-- the cube of the test -/
structure UnitCube (n : ℕ) (X : Poly) : Prop where
  fresh : X = Poly.fresh X.A X.b X.C X.d
  cube : IsCube n X (-1) 1
  one : ∀ i < X.A.nr, X.b.e i = 1
  rows : X.A.nr = n + n
  low : ∀ i < n, ∀ x, rowVal X.A i x = -x i
  up : ∀ i < n, ∀ x, rowVal X.A (n + i) x = x i

theorem unit_cube (n : ℕ) : ∃ X, Poly.from_bounds (fullB n (-1)) (fullB n 1) = .ok X ∧ UnitCube n X := by
  obtain ⟨D, I, a1, a2, -⟩ := cube_from_bounds n (-1) 1
  have hs : (Poly.sel n none).length = n := by rw [Poly.sel_none]; simp
  obtain ⟨D', h1, h0, h2⟩ := rep_from_bounds n ⟨n, fun _ => -1⟩ ⟨n, fun _ => 1⟩ none none (.inr ⟨rfl, rfl, rfl⟩) hs.symm rfl
  have e : Poly.from_bounds (fullB n (-1)) (fullB n 1) = .ok D' := h1
  rw [a1] at e
  cases e
  have hl := h2.len
  rw [hs] at hl
  have hnr : D.A.nr = n + n := by rw [hl.1]; simp
  have hi := h2.ineq
  rw [hs] at hi
  have key : ∀ k < n + n, (rowVal D.A k, D.b.e k) = if k < n then ((fun z : ℕ → ℝ => -1 * z ((Poly.sel n none).getD k 0)), - -1) else ((fun z : ℕ → ℝ => 1 * z ((Poly.sel n none).getD (k - n) 0)), 1) := by
    intro k hk
    have := congrArg (fun l => l[k]?) hi
    simp only [List.getElem?_map] at this
    rw [List.getElem?_range (by omega)] at this
    by_cases hkn : k < n
    · rw [List.getElem?_append_left (by simpa using hkn), List.getElem?_map, List.getElem?_range hkn] at this
      rw [if_pos hkn]
      exact Option.some.inj this
    · rw [List.getElem?_append_right (by simpa using hkn), List.length_map, List.length_range, List.getElem?_map, List.getElem?_range (by omega)] at this
      rw [if_neg hkn]
      exact Option.some.inj this
  refine ⟨D, a1, ⟨h0, a2, fun k hk => ?_, hnr, fun i hi x => ?_, fun i hi x => ?_⟩⟩
  · have := congrArg Prod.snd (key k (by omega))
    split_ifs at this <;> simpa using this
  · have := congrFun (congrArg Prod.fst (key i (by omega))) x
    rw [if_pos hi] at this
    simpa [Poly.sel_none, List.getElem?_range hi] using this
  · have := congrFun (congrArg Prod.fst (key (n + i) (by omega))) x
    rw [if_neg (by omega)] at this
    simpa [Poly.sel_none, List.getElem?_range hi] using this

/-- the point `z` is in the cube, as `contains` finds it -/
def CubeTol (n : ℕ) (z : ℕ → ℝ) : Prop := ∀ i < n, |z i| ≤ 1 + 1e-7

theorem UnitCube.contains {n : ℕ} (hn : 0 < n) {X : Poly} (h : UnitCube n X) (x : Vec ℝ) (hx : x.n = n) : ∃ r, X.contains x = .ok r ∧ (r = true ↔ CubeTol n x.e) := by
  obtain ⟨r, h1, h2⟩ := unit_contains h.cube.inv (by rw [h.rows]; omega) h.cube.noeq h.one x hx
  refine ⟨r, h1, h2.trans ((h.cube.mem _).trans (forall_congr' fun i => imp_congr_right fun _ => ?_))⟩
  have hp : (0 : ℝ) < 1 + 1e-7 := by norm_num
  rw [le_div_iff₀ hp, div_le_iff₀ hp, abs_le, neg_mul, one_mul]

theorem CubeTol.congr {n : ℕ} {y z : ℕ → ℝ} (h : ∀ i < n, y i = z i) : CubeTol n y ↔ CubeTol n z :=
  forall_congr' fun i => imp_congr_right fun hi => by rw [h i hi]

theorem norm2_congr {n : ℕ} {y z : ℕ → ℝ} (h : ∀ i < n, y i = z i) : norm2 n y = norm2 n z := by
  unfold norm2
  rw [Finset.sum_congr rfl fun i hi => by rw [h i (mem_range.1 hi)]]

theorem vnorm_eq {n : ℕ} {x : Vec ℝ} (hx : x.n = n) : vnorm x = norm2 n x.e := by
  unfold vnorm norm2
  rw [hx]

/-- the next state -/
theorem next_state {n : ℕ} {A : Mat ℝ} (hA1 : A.nr = n) (hA2 : A.nc = n) {x : Vec ℝ} (hx : x.n = n) :
    ∃ x' : Vec ℝ, np.dotMV A x = .ok x' ∧ x'.n = n ∧ ∀ t, orbit A x'.e t = orbit A x.e (t + 1) := by
  refine ⟨A.mulVec x, if_pos (hA2.trans hx.symm), hA1, fun t => ?_⟩
  rw [← orbit_shift]
  congr 1

theorem inside_ok {n : ℕ} (hn : 0 < n) {A : Mat ℝ} (hA1 : A.nr = n) (hA2 : A.nc = n) {X : Poly} (hX : UnitCube n X) : ∀ (K fuel : ℕ) (x : Vec ℝ), x.n = n → K < fuel →
    (∀ t, CubeTol n (orbit A x.e t)) → norm2 n (orbit A x.e K) ≤ 0.001 → insideLoop A X fuel x = .ok (some ())
  | K, 0, x, _, hf, _, _ => absurd hf (by omega)
  | K, fuel + 1, x, hx, hf, hin, hK => by
    unfold insideLoop
    split_ifs with hv
    · obtain ⟨x', h1, h2, h3⟩ := next_state hA1 hA2 hx
      obtain ⟨c, c1, c2⟩ := hX.contains hn x' h2
      have hc : c = true := c2.2 (by have := hin 1; rw [← h3 0] at this; exact this)
      rw [h1, Py.ok_bind, c1, Py.ok_bind, hc]
      show insideLoop A X fuel x' = _
      cases K with
      | zero =>
        rw [vnorm_eq hx] at hv
        exact absurd hK (not_le.2 hv)
      | succ K => exact inside_ok hn hA1 hA2 hX K fuel x' h2 (by omega) (fun t => by rw [h3]; exact hin _) (by rw [h3]; exact hK)
    · rfl

theorem outside_ok {n : ℕ} (hn : 0 < n) {A : Mat ℝ} (hA1 : A.nr = n) (hA2 : A.nc = n) {X : Poly} (hX : UnitCube n X) : ∀ (T fuel : ℕ) (x : Vec ℝ), x.n = n → T < fuel →
    (∀ t < T, CubeTol n (orbit A x.e t)) → ¬ CubeTol n (orbit A x.e T) →
    ((∀ t < T, 0.0001 ≤ norm2 n (orbit A x.e (t + 1))) → outsideLoop A X fuel x = .ok (some ())) ∧
    ((∃ t < T, norm2 n (orbit A x.e (t + 1)) < 0.0001) → outsideLoop A X fuel x = .error .assertionError)
  | T, 0, x, _, hf, _, _ => absurd hf (by omega)
  | T, fuel + 1, x, hx, hf, hin, hout => by
    obtain ⟨c, c1, c2⟩ := hX.contains hn x hx
    unfold outsideLoop
    rw [c1, Py.ok_bind]
    cases T with
    | zero =>
      have hc : c = false := by
        rw [← Bool.not_eq_true, c2]
        exact hout
      subst hc
      exact ⟨fun _ => rfl, fun ⟨t, ht, _⟩ => absurd ht (by omega)⟩
    | succ T =>
      have hc : c = true := c2.2 (hin 0 (by omega))
      subst hc
      obtain ⟨x', h1, h2, h3⟩ := next_state hA1 hA2 hx
      rw [if_pos rfl, h1, Py.ok_bind, vnorm_eq h2]
      obtain ⟨i1, i2⟩ := outside_ok hn hA1 hA2 hX T fuel x' h2 (by omega) (fun t ht => by rw [h3]; exact hin _ (by omega)) (by rw [h3]; exact hout)
      have h0 : norm2 n x'.e = norm2 n (orbit A x.e (0 + 1)) := by rw [← h3 0]; rfl
      rw [h0]
      constructor
      · intro h
        rw [if_neg (not_lt.2 (h 0 (by omega)))]
        exact i1 fun t ht => by rw [h3]; exact h _ (by omega)
      · rintro ⟨t, ht, h⟩
        split_ifs with h'
        · rfl
        · cases t with
          | zero => exact absurd h h'
          | succ t => exact i2 ⟨t, by omega, by rw [h3]; exact h⟩

/-- the trajectory from `x` leaves the cube, but its norm is below 1e-4 before -/
def SmallThenOut (n : ℕ) (A : Mat ℝ) (x : ℕ → ℝ) : Prop :=
  ∃ T, (∀ t < T, CubeTol n (orbit A x t)) ∧ ¬ CubeTol n (orbit A x T) ∧ ∃ t < T, norm2 n (orbit A x (t + 1)) < 0.0001

theorem norm_small {n : ℕ} {A : Mat ℝ} (hs : Stable n A) (x : ℕ → ℝ) : ∃ K, norm2 n (orbit A x K) ≤ 0.001 := by
  have h1 : Tendsto (fun t => ∑ i ∈ range n, orbit A x t i ^ 2) atTop (𝓝 (∑ i ∈ range n, (0 : ℝ) ^ 2)) := tendsto_finsetSum _ fun i hi => (hs x i (mem_range.1 hi)).pow 2
  have h2 : Tendsto (fun t => norm2 n (orbit A x t)) atTop (𝓝 (Real.sqrt (∑ i ∈ range n, (0 : ℝ) ^ 2))) := h1.sqrt
  simp only [ne_eq, OfNat.ofNat_ne_zero, not_false_eq_true, zero_pow, Finset.sum_const_zero, Real.sqrt_zero] at h2
  obtain ⟨K, hK⟩ := (h2.eventually (gt_mem_nhds (show (0 : ℝ) < 0.001 by norm_num))).exists
  exact ⟨K, hK.le⟩

theorem orbit_div (A : Mat ℝ) (x : ℕ → ℝ) (s : ℝ) : ∀ t, orbit A (fun i => x i / s) t = fun i => orbit A x t i / s
  | 0 => rfl
  | t + 1 => by
    funext i
    rw [orbit, orbit_div A x s t, orbit, Finset.sum_div]
    exact Finset.sum_congr rfl fun j _ => mul_div_assoc' _ _ _

/-- one point -/
theorem mcais_point_ok {L : Lib} (hL : LibSpec L) {n : ℕ} (hn : 0 < n) {A : Mat ℝ} (hA1 : A.nr = n) (hA2 : A.nc = n) {X O : Poly} (hX : UnitCube n X) (hs : Stable n A)
    (hd : McaisData L n A X) {f : ℕ} (hO : mcais L A X f = .ok (some O)) (hex : ∀ y, O.Mem y → StaysIn X A y) (x : Vec ℝ) (hx : x.n = n) :
    ∃ T, ∀ fuel ≥ T, (¬ SmallThenOut n A x.e → mcaisPoint A X O fuel x = .ok (some ())) ∧ (SmallThenOut n A x.e → mcaisPoint A X O fuel x = .error .assertionError) := by
  obtain ⟨Ob, r, hr⟩ := mcais_rows hL hd hO
  have hOiff : ∀ y, O.Mem y ↔ StaysIn X A y := fun y => ⟨hex y, fun h => by
    have := (hr.stays y).2 h
    rw [mem_noeq hr.noeq]
    intro i hi
    rw [hr.hA, hr.hb]
    rw [hr.hA] at hi
    have hi' : i < r.length := hi
    have hm : r.getD i 0 ∈ r := by
      rw [List.getD_eq_getElem _ _ hi']
      exact List.getElem_mem hi'
    exact this.1 _ (hr.lt _ hm)⟩
  have hone : ∀ i < Ob.A.nr, Ob.b.e i = 1 := fun i hi => by
    by_cases h : i < X.A.nr
    · rw [(hr.first.2 i h).2, hX.one i h]
    · obtain ⟨k, s, k1, -, -, k4⟩ := hr.later i hi (by omega)
      rw [k4, hX.one k k1]
  have hOone : ∀ i < O.A.nr, O.b.e i = 1 := fun i hi => by
    rw [hr.hA] at hi
    have hi' : i < r.length := hi
    have hm : r.getD i 0 ∈ r := by
      rw [List.getD_eq_getElem _ _ hi']
      exact List.getElem_mem hi'
    rw [hr.hb]
    exact hone _ (hr.lt _ hm)
  have hOpos : 0 < O.A.nr := by
    refine (Poly.hasRows_of_bounded hn ⟨1, fun x hx j hj => ?_⟩).resolve_right (by rw [hr.noeq]; omega)
    exact abs_le.2 ((hX.cube.mem _).1 ((hOiff x).1 hx 0) j hj)
  obtain ⟨c, c1, c2⟩ := unit_contains hr.inv hOpos hr.noeq hOone x hx
  have hstay : StaysIn X A (fun i => x.e i / (1 + 1e-7)) ↔ ∀ t, CubeTol n (orbit A x.e t) := by
    unfold StaysIn
    refine forall_congr' fun t => (hX.cube.mem _).trans (forall_congr' fun i => imp_congr_right fun _ => ?_)
    have hp : (0 : ℝ) < 1 + 1e-7 := by norm_num
    rw [orbit_div, le_div_iff₀ hp, div_le_iff₀ hp, abs_le, neg_mul, one_mul]
  rw [hOiff, hstay] at c2
  by_cases hall : ∀ t, CubeTol n (orbit A x.e t)
  · obtain ⟨K, hK⟩ := norm_small hs x.e
    refine ⟨K + 1, fun fuel hf => ⟨fun _ => ?_, fun ⟨T, _, h, _⟩ => absurd (hall T) h⟩⟩
    unfold mcaisPoint
    rw [c1, Py.ok_bind, c2.2 hall]
    exact inside_ok hn hA1 hA2 hX K fuel x hx (by omega) hall hK
  · have hc : c = false := by
      rw [← Bool.not_eq_true, c2]
      exact hall
    push Not at hall
    classical
    have hT := Nat.find_spec hall
    have hmin := fun t (ht : t < Nat.find hall) => not_not.1 (Nat.find_min hall ht)
    refine ⟨Nat.find hall + 1, fun fuel hf => ?_⟩
    obtain ⟨i1, i2⟩ := outside_ok hn hA1 hA2 hX (Nat.find hall) fuel x hx (by omega) hmin hT
    unfold mcaisPoint
    rw [c1, Py.ok_bind, hc]
    constructor
    · intro h
      refine i1 fun t ht => ?_
      by_contra hlt
      exact h ⟨_, hmin, hT, t, ht, not_le.1 hlt⟩
    · rintro ⟨T, h1, h2, t, ht, h3⟩
      have : Nat.find hall = T := le_antisymm (Nat.find_min' hall h2) (by
        by_contra hlt
        exact hT (h1 _ (by omega)))
      exact i2 ⟨t, by omega, h3⟩

theorem mcais_points_ok {A : Mat ℝ} {X O : Poly} {P : Vec ℝ → Prop} : ∀ xs : List (Vec ℝ),
    (∀ x ∈ xs, ∃ T, ∀ fuel ≥ T, (¬ P x → mcaisPoint A X O fuel x = .ok (some ())) ∧ (P x → mcaisPoint A X O fuel x = .error .assertionError)) →
    ∃ T, ∀ fuel ≥ T, ((∀ x ∈ xs, ¬ P x) → mcaisPoints A X O fuel xs = .ok (some ())) ∧ ((∃ x ∈ xs, P x) → mcaisPoints A X O fuel xs = .error .assertionError)
  | [], _ => ⟨0, fun fuel _ => ⟨fun _ => rfl, fun ⟨x, hx, _⟩ => absurd hx (by simp)⟩⟩
  | x :: xs, h => by
    obtain ⟨T1, h1⟩ := h x (by simp)
    obtain ⟨T2, h2⟩ := mcais_points_ok xs fun y hy => h y (by simp [hy])
    refine ⟨max T1 T2, fun fuel hf => ?_⟩
    obtain ⟨a1, a2⟩ := h1 fuel (le_trans (le_max_left _ _) hf)
    obtain ⟨b1, b2⟩ := h2 fuel (le_trans (le_max_right _ _) hf)
    unfold mcaisPoints
    constructor
    · intro hall
      rw [a1 (hall x (by simp)), Py.ok_bind]
      exact b1 fun y hy => hall y (by simp [hy])
    · rintro ⟨y, hy, hP⟩
      by_cases hx : P x
      · rw [a2 hx]
        rfl
      · rw [a1 hx, Py.ok_bind]
        rcases List.mem_cons.1 hy with rfl | hy
        · exact absurd hP hx
        · exact b2 ⟨y, hy, hP⟩

/-- a drawn matrix whose eigenvalues are inside the unit circle, as line 434 asks, and points -/
structure StableDraw (n : ℕ) (d : Mat ℝ × List (Vec ℝ)) : Prop where
  nr : d.1.nr = n
  nc : d.1.nc = n
  eig : ∀ (l : ℂ) (v : ℕ → ℂ), (∃ i < n, v i ≠ 0) → (∀ i < n, ∑ j ∈ range n, (d.1.e i j : ℂ) * v j = l * v i) → ‖l‖ < 1
  pts : ∀ x ∈ d.2, x.n = n

theorem UnitCube.data {L : Lib} {n : ℕ} (hn : 0 < n) {X : Poly} (h : UnitCube n X) {A : Mat ℝ} (h1 : A.nr = n) (h2 : A.nc = n) :
    McaisData L n A X ∧ X._bounded = none ∧ OriginInside n X := by
  refine ⟨⟨h1, h2, h.cube.inv, h.cube.noeq, (h.cube.mem _).2 fun _ _ => ⟨by norm_num, by norm_num⟩,
    ⟨1, fun x hx j hj => abs_le.2 ((h.cube.mem x).1 hx j hj)⟩, fun e he => ?_, hn⟩, ?_, 1, one_pos, fun x hx => (h.cube.mem x).2 fun i hi => abs_le.1 (hx i hi)⟩
  · rw [h.fresh] at he
    cases he
  · rw [h.fresh]
    rfl

/-- the facets that `mcais` removes cut off no point of the cube: its result has only points that stay in the cube -/
def ExactRemoval (L : Lib) (n : ℕ) (A : Mat ℝ) : Prop :=
  ∀ X O fuel, Poly.from_bounds (fullB n (-1)) (fullB n 1) = .ok X → mcais L A X fuel = .ok (some O) → ∀ y, O.Mem y → ∀ t, ∀ i < n, |orbit A y t i| ≤ 1

/-- C187, the part that holds: for all drawn stable matrices such that `mcais` removes no facet that cuts off points (by less than the tolerance), and all
drawn points, the loops of the test stop, and the test passes exactly when no trajectory from one of the points gets a norm below 1e-4 and
leaves the cube after that.  Missing: see `C187_false`. -/
theorem C187_partial (L : Lib) (hL : LibSpec L) (n : ℕ) (hn : 0 < n) : ∀ draws : List (Mat ℝ × List (Vec ℝ)), (∀ d ∈ draws, StableDraw n d ∧ ExactRemoval L n d.1) →
    ∃ T, ∀ fuel ≥ T, ((∀ d ∈ draws, ∀ x ∈ d.2, ¬ SmallThenOut n d.1 x.e) → test_mcais L n fuel draws = .ok (some ())) ∧
      ((∃ d ∈ draws, ∃ x ∈ d.2, SmallThenOut n d.1 x.e) → test_mcais L n fuel draws = .error .assertionError) := by
  obtain ⟨X, hX1, hX⟩ := unit_cube n
  suffices h : ∀ draws : List (Mat ℝ × List (Vec ℝ)), (∀ d ∈ draws, StableDraw n d ∧ ExactRemoval L n d.1) →
      ∃ T, ∀ fuel ≥ T, ((∀ d ∈ draws, ∀ x ∈ d.2, ¬ SmallThenOut n d.1 x.e) → mcaisDraws L X fuel draws = .ok (some ())) ∧
      ((∃ d ∈ draws, ∃ x ∈ d.2, SmallThenOut n d.1 x.e) → mcaisDraws L X fuel draws = .error .assertionError) by
    intro draws hd
    obtain ⟨T, hT⟩ := h draws hd
    refine ⟨T, fun fuel hf => ?_⟩
    unfold test_mcais
    rw [hX1]
    exact hT fuel hf
  intro draws
  induction draws with
  | nil => exact fun _ => ⟨0, fun fuel _ => ⟨fun _ => rfl, fun ⟨d, hd, _⟩ => absurd hd (by simp)⟩⟩
  | cons d ds ih =>
    intro hd
    obtain ⟨hsd, hex⟩ := hd d (by simp)
    obtain ⟨m1, m2, m3⟩ := hX.data (L := L) hn hsd.nr hsd.nc
    have hs : Stable n d.1 := stable_of_eig hsd.nc hsd.eig
    obtain ⟨T0, O, hO⟩ := C56 L hL n d.1 X m1 hn (.inl m2) m3 hs
    obtain ⟨T1, h1⟩ := mcais_points_ok (A := d.1) (X := X) (O := O) (P := fun x => SmallThenOut n d.1 x.e) d.2 fun x hx =>
      mcais_point_ok hL hn hsd.nr hsd.nc hX hs m1 (hO T0 le_rfl) (fun y hy t => (hX.cube.mem _).2 fun i hi => abs_le.1 (hex X O T0 hX1 (hO T0 le_rfl) y hy t i hi)) x (hsd.pts x hx)
    obtain ⟨T2, h2⟩ := ih fun e he => hd e (by simp [he])
    refine ⟨max T0 (max T1 T2), fun fuel hf => ?_⟩
    obtain ⟨a1, a2⟩ := h1 fuel (le_trans ((le_max_left _ _).trans (le_max_right _ _)) hf)
    obtain ⟨b1, b2⟩ := h2 fuel (le_trans ((le_max_right _ _).trans (le_max_right _ _)) hf)
    unfold mcaisDraws
    rw [hO fuel (le_trans (le_max_left _ _) hf), Py.ok_bind]
    dsimp only
    constructor
    · intro hall
      rw [a1 (hall d (by simp)), Py.ok_bind]
      exact b1 fun e he => hall e (by simp [he])
    · rintro ⟨e, he, x, hx, hP⟩
      by_cases hdx : ∃ x ∈ d.2, SmallThenOut n d.1 x.e
      · rw [a2 hdx]
        rfl
      · rw [a1 (by push Not at hdx; exact hdx), Py.ok_bind]
        rcases List.mem_cons.1 he with rfl | he
        · exact absurd ⟨x, hx, hP⟩ hdx
        · exact b2 ⟨e, he, x, hx, hP⟩

/-- the sums of the absolute values in the rows of `A` are at most `q` -/
def RowsBelow (n : ℕ) (A : Mat ℝ) (q : ℝ) : Prop := ∀ i < n, ∑ j ∈ range n, |A.e i j| ≤ q

theorem rowsBelow_orbit {n : ℕ} {A : Mat ℝ} (hA2 : A.nc = n) {q : ℝ} (hA : RowsBelow n A q) {x : ℕ → ℝ} {M : ℝ} (hM : 0 ≤ M) (hx : ∀ i < n, |x i| ≤ M) (hq : 0 ≤ q) :
    ∀ t, ∀ i < n, |orbit A x t i| ≤ q ^ t * M
  | 0, i, hi => by simpa [orbit] using hx i hi
  | t + 1, i, hi => by
    have ih := rowsBelow_orbit hA2 hA hM hx hq t
    rw [orbit, hA2]
    calc |∑ j ∈ range n, A.e i j * orbit A x t j| ≤ ∑ j ∈ range n, |A.e i j * orbit A x t j| := Finset.abs_sum_le_sum_abs _ _
      _ ≤ ∑ j ∈ range n, |A.e i j| * (q ^ t * M) := Finset.sum_le_sum fun j hj => by
          rw [abs_mul]
          exact mul_le_mul_of_nonneg_left (ih j (mem_range.1 hj)) (abs_nonneg _)
      _ = (∑ j ∈ range n, |A.e i j|) * (q ^ t * M) := (Finset.sum_mul _ _ _).symm
      _ ≤ q * (q ^ t * M) := mul_le_mul_of_nonneg_right (hA i hi) (by positivity)
      _ = q ^ (t + 1) * M := by ring

theorem rowsBelow_eig {n : ℕ} {A : Mat ℝ} {q : ℝ} (hA : RowsBelow n A q) {l : ℂ} {v : ℕ → ℂ} (hv : ∃ i < n, v i ≠ 0)
    (h : ∀ i < n, ∑ j ∈ range n, (A.e i j : ℂ) * v j = l * v i) : ‖l‖ ≤ q := by
  obtain ⟨k, hk, hvk⟩ := hv
  obtain ⟨i, hi, hmax⟩ := Finset.exists_max_image (range n) (fun j => ‖v j‖) ⟨k, mem_range.2 hk⟩
  have hpos : 0 < ‖v i‖ := lt_of_lt_of_le (norm_pos_iff.2 hvk) (hmax k (mem_range.2 hk))
  have h1 : ‖l‖ * ‖v i‖ ≤ q * ‖v i‖ := by
    rw [← norm_mul, ← h i (mem_range.1 hi)]
    calc ‖∑ j ∈ range n, (A.e i j : ℂ) * v j‖ ≤ ∑ j ∈ range n, ‖(A.e i j : ℂ) * v j‖ := norm_sum_le _ _
      _ ≤ ∑ j ∈ range n, |A.e i j| * ‖v i‖ := Finset.sum_le_sum fun j hj => by
          rw [norm_mul, Complex.norm_real]
          exact mul_le_mul_of_nonneg_left (hmax j hj) (abs_nonneg _)
      _ = (∑ j ∈ range n, |A.e i j|) * ‖v i‖ := (Finset.sum_mul _ _ _).symm
      _ ≤ q * ‖v i‖ := mul_le_mul_of_nonneg_right (hA i (mem_range.1 hi)) hpos.le
  exact le_of_mul_le_mul_right h1 hpos

/-- the test passes with all matrices that contract the cube by a little, and all points -/
theorem C187_contraction (L : Lib) (hL : LibSpec L) (n : ℕ) (hn : 0 < n) (draws : List (Mat ℝ × List (Vec ℝ)))
    (hd : ∀ d ∈ draws, d.1.nr = n ∧ d.1.nc = n ∧ RowsBelow n d.1 (1 - 1e-7) ∧ ∀ x ∈ d.2, x.n = n) :
    ∃ T, ∀ fuel ≥ T, test_mcais L n fuel draws = .ok (some ()) := by
  obtain ⟨T, hT⟩ := C187_partial L hL n hn draws fun d hdd => by
    obtain ⟨d1, d2, d3, d4⟩ := hd d hdd
    refine ⟨⟨d1, d2, fun l v hv h => lt_of_le_of_lt (rowsBelow_eig d3 hv h) (by norm_num), d4⟩, fun X O fuel hX1 hO y hy => ?_⟩
    obtain ⟨X', hX1', hX⟩ := unit_cube n
    rw [hX1] at hX1'
    cases hX1'
    obtain ⟨m1, m2, m3⟩ := hX.data (L := L) hn d1 d2
    obtain ⟨Ob, r, hr⟩ := mcais_rows hL m1 hO
    have hrow : ∀ k < n + n, ∃ j < n, ∃ sg : ℝ, |sg| = 1 ∧ (∀ x, rowVal X.A k x = sg * x j) ∧ ∀ k' < n + n, k' ≠ k → rowVal X.A k' (fun i => if i = j then (1 + 1e-7) * sg else 0) ≤ 1 := fun k hk => by
      by_cases hkn : k < n
      · refine ⟨k, hkn, -1, by norm_num, fun x => by rw [hX.low k hkn]; ring, fun k' hk' hne => ?_⟩
        by_cases hk'n : k' < n
        · rw [hX.low k' hk'n]
          simp [hne]
        · obtain ⟨i, rfl⟩ := Nat.exists_eq_add_of_le (not_lt.1 hk'n)
          rw [hX.up i (by omega)]
          split_ifs <;> norm_num
      · obtain ⟨i, rfl⟩ := Nat.exists_eq_add_of_le (not_lt.1 hkn)
        refine ⟨i, by omega, 1, by norm_num, fun x => by rw [hX.up i (by omega)]; ring, fun k' hk' hne => ?_⟩
        by_cases hk'n : k' < n
        · rw [hX.low k' hk'n]
          split_ifs <;> norm_num
        · obtain ⟨i', rfl⟩ := Nat.exists_eq_add_of_le (not_lt.1 hk'n)
          rw [hX.up i' (by omega), if_neg (by omega)]
          norm_num
    have hin : ∀ k < n + n, k ∈ r := fun k hk => by
      by_contra hkr
      obtain ⟨j, hj, sg, s1, s2, s3⟩ := hrow k hk
      have hfk := hr.first.2 k (by rw [hX.rows]; exact hk)
      have := hr.removed k (lt_of_lt_of_le (by rw [hX.rows]; exact hk) hr.first.1) hkr (fun i => if i = j then (1 + 1e-7) * sg else 0) fun k' hk' hne => by
        by_cases hlt : k' < X.A.nr
        · rw [(hr.first.2 k' hlt).1, (hr.first.2 k' hlt).2, hX.one k' hlt]
          exact s3 k' (by rw [← hX.rows]; exact hlt) hne
        · obtain ⟨i, s, q1, q2, q3, q4⟩ := hr.later k' hk' (by omega)
          rw [q3, q4, hX.one i q1]
          obtain ⟨j', hj', sg', s1', s2', -⟩ := hrow i (by rw [← hX.rows]; exact q1)
          rw [s2']
          have hb := rowsBelow_orbit d2 d3 (x := fun i => if i = j then (1 + 1e-7) * sg else 0) (M := 1 + 1e-7) (by norm_num) (fun i _ => by
            split_ifs
            · rw [abs_mul, s1, abs_of_pos (by norm_num)]
              norm_num
            · norm_num) (by norm_num) s j' hj'
          have hle : (1 - 1e-7 : ℝ) ^ s ≤ (1 - 1e-7) ^ 1 := pow_le_pow_of_le_one (by norm_num) (by norm_num) q2
          calc _ ≤ |sg' * orbit d.1 (fun i => if i = j then (1 + 1e-7) * sg else 0) s j'| := le_abs_self _
            _ = |orbit d.1 (fun i => if i = j then (1 + 1e-7) * sg else 0) s j'| := by rw [abs_mul, s1', one_mul]
            _ ≤ (1 - 1e-7) ^ s * (1 + 1e-7) := hb
            _ ≤ (1 - 1e-7) ^ 1 * (1 + 1e-7) := mul_le_mul_of_nonneg_right hle (by norm_num)
            _ ≤ 1 := by norm_num
      rw [hfk.1, hfk.2, hX.one k (by rw [hX.rows]; exact hk), s2, if_pos rfl] at this
      have hsq : sg * sg = 1 := by rw [← abs_mul_abs_self, s1, one_mul]
      have : sg * ((1 + 1e-7) * sg) = (1 + 1e-7) * (sg * sg) := by ring
      rw [hsq] at this
      linarith
    have hy1 : X.Mem y := by
      rw [mem_noeq hX.cube.noeq]
      intro k hk
      have hkr := hin k (by rw [← hX.rows]; exact hk)
      obtain ⟨p, hp, e⟩ := List.getElem_of_mem hkr
      rw [mem_noeq hr.noeq] at hy
      have := hy p (by rw [hr.hA]; exact hp)
      rw [hr.hA, hr.hb] at this
      have this : rowVal Ob.A (r.getD p 0) y ≤ Ob.b.e (r.getD p 0) := this
      rw [List.getD_eq_getElem _ _ hp, e, (hr.first.2 k hk).1, (hr.first.2 k hk).2] at this
      exact this
    intro t i hi
    refine (rowsBelow_orbit d2 d3 zero_le_one (fun i hi => abs_le.2 ((hX.cube.mem y).1 hy1 i hi)) (by norm_num) t i hi).trans ?_
    rw [mul_one]
    exact pow_le_one₀ (by norm_num) (by norm_num)
  refine ⟨T, fun fuel hf => (hT fuel hf).1 fun d hdd x _ => ?_⟩
  obtain ⟨d1, d2, d3, d4⟩ := hd d hdd
  rintro ⟨K, h1, h2, t, ht, -⟩
  refine h2 fun i hi => (rowsBelow_orbit d2 d3 (M := 1 + 1e-7) (by norm_num) (h1 0 (by omega)) (by norm_num) K i hi).trans ?_
  exact mul_le_of_le_one_left (by norm_num) (pow_le_one₀ (by norm_num) (by norm_num))

/-- the matrix `[[1/2, 1/2 + 5e-8], [0, 0]]` -/
noncomputable def cornerA : Mat ℝ := ⟨2, 2, fun i j => if i = 0 then (if j = 0 then 1 / 2 else 1 / 2 + 5e-8) else 0⟩

/-- the point `(1 + 8e-8)(1, 1)` -/
noncomputable def cornerX : Vec ℝ := ⟨2, fun _ => 1 + 8e-8⟩

theorem corner_orbit (x : ℕ → ℝ) : ∀ s, orbit cornerA x (s + 1) 0 = (1 / 2) ^ s * (1 / 2 * x 0 + (1 / 2 + 5e-8) * x 1) ∧ orbit cornerA x (s + 1) 1 = 0
  | 0 => by
    simp only [orbit]
    simp [cornerA, Finset.sum_range_succ]
  | s + 1 => by
    obtain ⟨h1, h2⟩ := corner_orbit x s
    rw [orbit]
    show ∑ j ∈ range 2, cornerA.e 0 j * _ = _ ∧ ∑ j ∈ range 2, cornerA.e 1 j * _ = _
    rw [Finset.sum_range_succ, Finset.sum_range_one, Finset.sum_range_succ, Finset.sum_range_one, h1, h2]
    simp only [cornerA]
    norm_num
    ring

theorem corner_eig (l : ℂ) (v : ℕ → ℂ) (hv : ∃ i < 2, v i ≠ 0) (h : ∀ i < 2, ∑ j ∈ range 2, (cornerA.e i j : ℂ) * v j = l * v i) : ‖l‖ < 1 := by
  have h0 := h 0 (by norm_num)
  have h1 := h 1 (by norm_num)
  simp only [Finset.sum_range_succ, Finset.sum_range_zero, zero_add, cornerA, if_true, one_ne_zero, if_false] at h0 h1
  rcases eq_or_ne l 0 with rfl | hl
  · simp
  · have hv1 : v 1 = 0 := by
      have : l * v 1 = 0 := by rw [← h1]; simp
      exact (mul_eq_zero.1 this).resolve_left hl
    obtain ⟨i, hi, hvi⟩ := hv
    have hv0 : v 0 ≠ 0 := by
      interval_cases i
      · exact hvi
      · exact absurd hv1 hvi
    rw [hv1, mul_zero, add_zero] at h0
    have : l = ((1 / 2 : ℝ) : ℂ) := (mul_right_cancel₀ hv0 h0).symm
    rw [this, Complex.norm_real]
    norm_num

/-- the result of `mcais` for this matrix is the whole square, as `contains` sees it -/
theorem corner_contains {L : Lib} (hL : LibSpec L) {X O : Poly} (hX : UnitCube 2 X) {fuel : ℕ} (hO : mcais L cornerA X fuel = .ok (some O)) :
    O.contains cornerX = .ok true := by
  obtain ⟨m1, -, -⟩ := hX.data (L := L) (A := cornerA) (n := 2) two_pos rfl rfl
  obtain ⟨Ob, r, hr⟩ := mcais_rows hL m1 hO
  have r0 := hX.low 0 (by norm_num)
  have r1 := hX.low 1 (by norm_num)
  have r2 := hX.up 0 (by norm_num)
  have r3 := hX.up 1 (by norm_num)
  simp only [Nat.add_zero, Nat.reduceAdd] at r2 r3
  have hnr : X.A.nr = 4 := hX.rows
  have hone : ∀ i < Ob.A.nr, Ob.b.e i = 1 := fun i hi => by
    by_cases h : i < X.A.nr
    · rw [(hr.first.2 i h).2, hX.one i h]
    · obtain ⟨k, s, k1, -, -, k4⟩ := hr.later i hi (by omega)
      rw [k4, hX.one k k1]
  -- the value of a row that was added
  have later : ∀ i < Ob.A.nr, 4 ≤ i → ∃ s : ℕ, (∀ x, rowVal Ob.A i x ≤ |(1 / 2) ^ s * (1 / 2 * x 0 + (1 / 2 + 5e-8) * x 1)|) ∧
      (s = 0 → (∀ x, rowVal Ob.A i x = 1 / 2 * x 0 + (1 / 2 + 5e-8) * x 1) ∨ ∀ x, rowVal Ob.A i x ≤ 0 ∨ rowVal Ob.A i x = -(1 / 2 * x 0 + (1 / 2 + 5e-8) * x 1)) := fun i hi h4 => by
    obtain ⟨k, s, k1, k2, k3, -⟩ := hr.later i hi (by omega)
    obtain ⟨s, rfl⟩ := Nat.exists_eq_add_of_le' k2
    refine ⟨s, fun x => ?_, fun hs => ?_⟩
    · obtain ⟨o1, o2⟩ := corner_orbit x s
      rw [k3]
      rw [hnr] at k1
      interval_cases k
      · rw [r0, o1]; exact neg_le_abs _
      · rw [r1, o2]; simp
      · rw [r2, o1]; exact le_abs_self _
      · rw [r3, o2]; exact abs_nonneg _
    · subst hs
      rw [hnr] at k1
      interval_cases k
      · right
        intro x
        right
        rw [k3, r0, (corner_orbit x 0).1]; simp
      · right
        intro x
        left
        rw [k3, r1, (corner_orbit x 0).2]; simp
      · left
        intro x
        rw [k3, r2, (corner_orbit x 0).1]; simp
      · right
        intro x
        left
        rw [k3, r3, (corner_orbit x 0).2]
  -- the upper bounds of the square are kept
  have hkeep : ∀ k, (k = 2 ∨ k = 3) → k ∈ r := fun k hk => by
    by_contra hkr
    have hk4 : k < 4 := by omega
    have h4 := hr.first.1
    rw [hnr] at h4
    obtain ⟨f1, f2⟩ := hr.first.2 k (by omega)
    have := hr.removed k (by omega) hkr (fun i => if i + 2 = k then 2 else -1) fun j hj hne => by
      rw [hone j hj]
      by_cases hj4 : j < 4
      · rw [(hr.first.2 j (by omega)).1]
        interval_cases j
        · rw [r0]; split_ifs <;> norm_num
        · rw [r1]; split_ifs <;> norm_num
        · rw [r2, if_neg hne]; norm_num
        · rw [r3, if_neg hne]; norm_num
      · obtain ⟨s, s1, -⟩ := later j hj (by omega)
        refine (s1 _).trans ?_
        rw [abs_mul, abs_of_nonneg (by positivity)]
        refine mul_le_one₀ (pow_le_one₀ (by norm_num) (by norm_num)) (abs_nonneg _) ?_
        rcases hk with rfl | rfl <;> norm_num [abs_le]
    rw [f1, f2, hX.one k (by omega)] at this
    rcases hk with rfl | rfl
    · rw [r2] at this; norm_num at this
    · rw [r3] at this; norm_num at this
  -- every row that is kept holds at the point
  have hrow : ∀ j ∈ r, rowVal Ob.A j cornerX.e ≤ 1 + 1e-7 := fun j hj => by
    have hjn := hr.lt j hj
    by_cases hj4 : j < 4
    · rw [(hr.first.2 j (by omega)).1]
      interval_cases j
      · rw [r0]; norm_num [cornerX]
      · rw [r1]; norm_num [cornerX]
      · rw [r2]; norm_num [cornerX]
      · rw [r3]; norm_num [cornerX]
    · obtain ⟨s, s1, s2⟩ := later j hjn (by omega)
      rcases Nat.eq_zero_or_pos s with hs | hs
      · rcases s2 hs with h | h
        · exfalso
          obtain ⟨x, x1, x2⟩ := hr.kept j hj
          have hle := hr.first.1
          have u2 := x1 2 (hkeep 2 (.inl rfl)) (by omega)
          have u3 := x1 3 (hkeep 3 (.inr rfl)) (by omega)
          rw [hone 2 (by omega), (hr.first.2 2 (by omega)).1, r2] at u2
          rw [hone 3 (by omega), (hr.first.2 3 (by omega)).1, r3] at u3
          rw [hone j hjn, h] at x2
          norm_num at x2
          linarith
        · rcases h cornerX.e with h | h
          · exact h.trans (by norm_num)
          · rw [h]
            norm_num [cornerX]
      · refine (s1 _).trans ?_
        rw [abs_mul, abs_of_nonneg (by positivity)]
        calc (1 / 2 : ℝ) ^ s * |1 / 2 * cornerX.e 0 + (1 / 2 + 5e-8) * cornerX.e 1| ≤ (1 / 2) ^ 1 * 2 :=
              mul_le_mul (pow_le_pow_of_le_one (by norm_num) (by norm_num) hs) (by norm_num [cornerX, abs_le]) (abs_nonneg _) (by norm_num)
          _ ≤ 1 + 1e-7 := by norm_num
  have hOpos : 0 < O.A.nr := by
    rw [hr.hA]
    exact List.length_pos_of_mem (hkeep 2 (.inl rfl))
  obtain ⟨c, c1, c2⟩ := contains_iff hr.inv hOpos cornerX rfl 1e-7
  rw [c1, c2.2]
  refine ⟨fun i hi => ?_, fun h => absurd h (by rw [hr.noeq]; omega)⟩
  rw [hr.hA] at hi
  have hi' : i < r.length := hi
  have hm : r.getD i 0 ∈ r := by
    rw [List.getD_eq_getElem _ _ hi']
    exact List.getElem_mem hi'
  have q1 := hrow _ hm
  have q2 := hone _ (hr.lt _ hm)
  rw [hr.hb, show (Ob.b.take r).e i = Ob.b.e (r.getD i 0) from rfl, q2]
  have q3 : ∑ j ∈ range 2, O.A.e i j * cornerX.e j = rowVal Ob.A (r.getD i 0) cornerX.e := by
    rw [← show O.A.nc = 2 from hr.inv.1, hr.hA]
    rfl
  rw [q3]
  linarith

/-- C187 is false of the code, in two ways.  (1) With a matrix with entries in `[0, 1)` and eigenvalues 1/2 and 0 and a point in `[-1.5, 1.5)^2` the test fails:
`mcais` removes a facet that cuts off a corner of the square by 5e-8, and from a point near the corner, which the result contains up to the tolerance, the next state is out of the
square by more than the tolerance.  (2) There are a matrix with entries in `[0, 1)` and eigenvalues below one and a point such that the norm gets below 1e-4 before the
trajectory leaves the square. -/
theorem C187_false :
    (∃ (A : Mat ℝ) (x : Vec ℝ), StableDraw 2 (A, [x]) ∧ (∀ i < 2, ∀ j < 2, 0 ≤ A.e i j ∧ A.e i j < 1) ∧ (∀ i < 2, -1.5 ≤ x.e i ∧ x.e i < 1.5) ∧
      ¬ SmallThenOut 2 A x.e ∧ ∀ L, LibSpec L → ∃ T, ∀ fuel ≥ T, test_mcais L 2 fuel [(A, [x])] = .error .assertionError) ∧
    ∃ (A : Mat ℝ) (x : Vec ℝ), StableDraw 2 (A, [x]) ∧ (∀ i < 2, ∀ j < 2, 0 ≤ A.e i j ∧ A.e i j < 1) ∧ (∀ i < 2, -1.5 ≤ x.e i ∧ x.e i < 1.5) ∧
      SmallThenOut 2 A x.e := by
  constructor
  · have hsd : StableDraw 2 (cornerA, [cornerX]) := ⟨rfl, rfl, corner_eig, fun x hx => by rw [List.mem_singleton.1 hx]; rfl⟩
    have hnext : orbit cornerA cornerX.e (0 + 1) 0 = 1 / 2 * (1 + 8e-8) + (1 / 2 + 5e-8) * (1 + 8e-8) := by
      rw [(corner_orbit _ 0).1]
      simp [cornerX]
    refine ⟨cornerA, cornerX, hsd, fun i hi j hj => ?_, fun i _ => by norm_num [cornerX], ?_, fun L hL => ?_⟩
    · interval_cases i <;> interval_cases j <;> norm_num [cornerA]
    · rintro ⟨T, h1, h2, t, ht, h3⟩
      obtain rfl | hT : T = 1 ∨ 2 ≤ T := by omega
      · obtain rfl : t = 0 := by omega
        have : |orbit cornerA cornerX.e (0 + 1) 0| ≤ norm2 2 (orbit cornerA cornerX.e (0 + 1)) := by
          rw [← Real.sqrt_sq_eq_abs]
          exact Real.sqrt_le_sqrt (Finset.single_le_sum (f := fun j => orbit cornerA cornerX.e (0 + 1) j ^ 2) (fun j _ => _root_.sq_nonneg _) (mem_range.2 (by norm_num : 0 < 2)))
        rw [hnext, abs_of_pos (by norm_num)] at this
        norm_num at this h3
        linarith
      · have := h1 1 (by omega) 0 (by norm_num)
        rw [show (1 : ℕ) = 0 + 1 from rfl, hnext, abs_of_pos (by norm_num)] at this
        norm_num at this
    · obtain ⟨X, hX1, hX⟩ := unit_cube 2
      obtain ⟨m1, m2, m3⟩ := hX.data (L := L) (A := cornerA) (n := 2) two_pos rfl rfl
      obtain ⟨T, O, hO⟩ := C56 L hL 2 cornerA X m1 two_pos (.inl m2) m3 (stable_of_eig rfl corner_eig)
      refine ⟨T + 1, fun fuel hf => ?_⟩
      obtain ⟨fuel, rfl⟩ := Nat.exists_eq_add_of_le' (show 1 ≤ fuel by omega)
      have hO' := hO (fuel + 1) (by omega)
      obtain ⟨x', n1, n2, n3⟩ := next_state (A := cornerA) (n := 2) rfl rfl (x := cornerX) rfl
      obtain ⟨c, c1, c2⟩ := hX.contains two_pos x' n2
      have hc : c = false := by
        rw [← Bool.not_eq_true, c2]
        intro h
        have := h 0 (by norm_num)
        rw [show x'.e = orbit cornerA x'.e 0 from rfl, n3, hnext, abs_of_pos (by norm_num)] at this
        norm_num at this
      have hnorm : 0.001 < vnorm cornerX := by
        have : |cornerX.e 0| ≤ vnorm cornerX := by
          rw [← Real.sqrt_sq_eq_abs]
          exact Real.sqrt_le_sqrt (Finset.single_le_sum (f := fun j => cornerX.e j ^ 2) (fun j _ => _root_.sq_nonneg _) (mem_range.2 (by norm_num [cornerX] : 0 < cornerX.n)))
        refine lt_of_lt_of_le ?_ this
        norm_num [cornerX, abs_of_pos]
      have hin : insideLoop cornerA X (fuel + 1) cornerX = .error .assertionError := by
        unfold insideLoop
        rw [if_pos hnorm, n1, Py.ok_bind, c1, Py.ok_bind, hc]
        rfl
      unfold test_mcais
      rw [hX1, Py.ok_bind]
      unfold mcaisDraws
      rw [hO', Py.ok_bind]
      dsimp only
      unfold mcaisPoints mcaisPoint
      rw [corner_contains hL hX hO', Py.ok_bind, if_pos rfl, hin]
      rfl
  · let a : ℝ := 1 - 1e-6
    let A : Mat ℝ := ⟨2, 2, fun i j => if i = j then a else if i = 0 then 1 / 2 else 0⟩
    let x : Vec ℝ := ⟨2, fun i => if i = 0 then 0 else 5e-5⟩
    have ho : ∀ t : ℕ, orbit A x.e (t + 1) 0 = (t + 1) * a ^ t * (1 / 2) * 5e-5 ∧ orbit A x.e (t + 1) 1 = a ^ (t + 1) * 5e-5 := by
      intro t
      induction t with
      | zero =>
        simp only [orbit]
        constructor <;> simp [A, x, Finset.sum_range_succ]
      | succ t ih =>
        obtain ⟨i1, i2⟩ := ih
        rw [orbit]
        show ∑ j ∈ range 2, A.e 0 j * _ = _ ∧ ∑ j ∈ range 2, A.e 1 j * _ = _
        rw [Finset.sum_range_succ, Finset.sum_range_one, Finset.sum_range_succ, Finset.sum_range_one, i1, i2]
        constructor
        · simp [A]
          ring
        · simp [A]
          ring
    refine ⟨A, x, ⟨rfl, rfl, fun l v hv h => ?_, fun y hy => by rw [List.mem_singleton.1 hy]⟩, fun i hi j hj => ?_, fun i hi => ?_, ?_⟩
    · have h0 := h 0 (by norm_num)
      have h1 := h 1 (by norm_num)
      simp [Finset.sum_range_succ, A] at h0 h1
      have hla : l = (a : ℂ) := by
        by_cases hv1 : v 1 = 0
        · obtain ⟨i, hi, hvi⟩ := hv
          have hv0 : v 0 ≠ 0 := by
            interval_cases i
            · exact hvi
            · exact absurd hv1 hvi
          rw [hv1, mul_zero, add_zero] at h0
          exact (mul_right_cancel₀ hv0 h0).symm
        · rcases h1 with h1 | h1
          · exact h1.symm
          · exact absurd h1 hv1
      rw [hla, Complex.norm_real]
      norm_num [a, abs_of_pos]
    · interval_cases i <;> interval_cases j <;> norm_num [A, a]
    · interval_cases i <;> norm_num [x]
    · have hex : ∃ T, ¬ CubeTol 2 (orbit A x.e T) := by
        refine ⟨499999 + 1, fun h => ?_⟩
        have := h 0 (by norm_num)
        rw [(ho 499999).1] at this
        have hb : 1 + (499999 : ℕ) * (-1e-6 : ℝ) ≤ (1 + -1e-6) ^ 499999 := one_add_mul_le_pow (by norm_num) 499999
        have ha : a = 1 + -1e-6 := by norm_num [a]
        rw [← ha] at hb
        generalize a ^ 499999 = p at this hb
        have h2 := (le_abs_self _).trans this
        push_cast at h2 hb
        norm_num at h2 hb
        linarith
      classical
      have hT := Nat.find_spec hex
      refine ⟨Nat.find hex, fun t ht => not_not.1 (Nat.find_min hex ht), hT, 0, ?_, ?_⟩
      · rcases Nat.eq_zero_or_pos (Nat.find hex) with h | h
        · rw [h] at hT
          refine absurd (fun i hi => ?_) hT
          show |x.e i| ≤ _
          interval_cases i <;> norm_num [x, abs_of_pos]
        · exact h
      · unfold norm2
        rw [Finset.sum_range_succ, Finset.sum_range_one, (ho 0).1, (ho 0).2, Real.sqrt_lt' (by norm_num)]
        norm_num [a]

/-- draws that meet the hypotheses of `C187_partial` and `C187_contraction` -/
example : ∃ L, LibSpec L ∧ ∃ T, ∀ fuel ≥ T, test_mcais L 2 fuel [(⟨2, 2, fun i j => if i = j then 1 / 2 else 1 / 4⟩, [⟨2, fun _ => 1 / 2⟩, ⟨2, fun _ => 1.4⟩])] = .ok (some ()) := by
  obtain ⟨L, hL⟩ := exists_lib
  refine ⟨L, hL, C187_contraction L hL 2 two_pos _ fun d hd => ?_⟩
  rw [List.mem_singleton.1 hd]
  refine ⟨rfl, rfl, fun i hi => ?_, fun x hx => ?_⟩
  · interval_cases i <;> norm_num [Finset.sum_range_succ]
  · simp only [List.mem_cons, List.not_mem_nil, or_false] at hx
    rcases hx with rfl | rfl <;> rfl

end Verif.Props
