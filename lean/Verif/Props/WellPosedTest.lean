import Verif.Model.TestWellPosed
import Verif.Props.CondenseTest
import Verif.Props.PwaWellPosed

/- The test of `is_well_posed` (test_discrete_time_systems.py:392-416). -/
namespace Verif.Props
open Finset Spec Dyn TestSuite

/-- a box `{lo ≤ z ≤ hi}` in `n` dimensions, as a polyhedron without equalities -/
structure IsCube (n : ℕ) (D : Poly) (lo hi : ℝ) : Prop where
  inv : D.Inv n
  noeq : D.C.nr = 0
  mem : ∀ z, D.Mem z ↔ ∀ i < n, lo ≤ z i ∧ z i ≤ hi

theorem cube_from_bounds (n : ℕ) (lo hi : ℝ) : ∃ D I, Poly.from_bounds (fullB n lo) (fullB n hi) = .ok D ∧ IsCube n D lo hi ∧ Rep n D I [] := by
  have hs : (Poly.sel n none).length = n := by rw [Poly.sel_none]; simp
  obtain ⟨D, h1, -, h2⟩ := rep_from_bounds n ⟨n, fun _ => lo⟩ ⟨n, fun _ => hi⟩ none none (.inr ⟨rfl, rfl, rfl⟩) hs.symm rfl
  refine ⟨D, _, h1, ⟨h2.inv, h2.len.2, fun z => ?_⟩, h2⟩
  rw [h2.mem, hs]
  simp only [List.not_mem_nil, false_imp_iff, implies_true, and_true, List.mem_append, List.mem_map, List.mem_range]
  constructor
  · intro h i hi'
    have a1 := h _ (.inl ⟨i, hi', rfl⟩)
    have a2 := h _ (.inr ⟨i, hi', rfl⟩)
    simp only [Poly.sel_none, Poly.getD_range hi'] at a1 a2
    constructor <;> linarith
  · rintro h r (⟨i, hi', rfl⟩ | ⟨i, hi', rfl⟩) <;> simp only [Poly.sel_none, Poly.getD_range hi'] <;> linarith [(h i hi').1, (h i hi').2]

theorem cube_raise {n : ℕ} {D : Poly} {lo hi : ℝ} {I} (h : IsCube n D lo hi) (hI : Rep n D I []) {a : ℝ} (ha : lo ≤ a) :
    ∃ E, Poly.runOn D (Poly.add_lower_bound (fullB n a)) = .ok E ∧ IsCube n E a hi := by
  have hs : (Poly.sel n none).length = n := by rw [Poly.sel_none]; simp
  obtain ⟨E, h1, -, h2⟩ := rep_lower hI ⟨n, fun _ => a⟩ none hs.symm
  refine ⟨E, h1, ⟨h2.inv, h2.len.2, fun z => ?_⟩⟩
  have hm := (hI.mem z).symm.trans (h.mem z)
  rw [h2.mem, hs]
  simp only [List.not_mem_nil, false_imp_iff, implies_true, and_true, List.mem_append, List.mem_map, List.mem_range] at hm ⊢
  constructor
  · intro h' i hi'
    have a1 := h' _ (.inr ⟨i, hi', rfl⟩)
    simp only [Poly.sel_none, Poly.getD_range hi'] at a1
    exact ⟨by linarith, (hm.1 (fun r hr => h' r (.inl hr)) i hi').2⟩
  · rintro h' r (hr | ⟨i, hi', rfl⟩)
    · exact hm.2 (fun i hi' => ⟨ha.trans (h' i hi').1, (h' i hi').2⟩) r hr
    · simp only [Poly.sel_none, Poly.getD_range hi']
      linarith [(h' i hi').1]

theorem IsCube.pair {n : ℕ} {D E : Poly} {a b c d : ℝ} (h1 : IsCube n D a b) (h2 : IsCube n E c d) (hab : a ≤ b) (hcd : c ≤ d) : PairOk n D E :=
  ⟨h1.inv, h2.inv, h1.noeq, h2.noeq, ⟨fun _ => a, (h1.mem _).2 fun _ _ => ⟨le_rfl, hab⟩⟩, ⟨fun _ => c, (h2.mem _).2 fun _ _ => ⟨le_rfl, hcd⟩⟩⟩

/-- a ball in a box -/
theorem IsCube.ball {n : ℕ} (hn : 0 < n) {D : Poly} {lo hi : ℝ} (h : IsCube n D lo hi) {c : ℕ → ℝ} {r : ℝ} (hr : 0 ≤ r) (hB : BallIn n D.A D.b D.C D.d c r) : lo ≤ c 0 - r ∧ c 0 + r ≤ hi := by
  have key : ∀ s : ℝ, |s| = r → lo ≤ c 0 + s ∧ c 0 + s ≤ hi := fun s hs => by
    have := (h.mem _).1 (hB (fun j => if j = 0 then s else 0) (fun i hi => by rw [h.noeq] at hi; omega) (by
      have e : ∑ j ∈ range n, (if j = 0 then s else 0) ^ 2 = s ^ 2 := by
        rw [Finset.sum_eq_single 0]
        · simp
        · intro j _ hj
          simp [hj]
        · intro h0
          exact absurd (mem_range.2 hn) h0
      show Real.sqrt (∑ j ∈ range n, (if j = 0 then s else 0) ^ 2) ≤ r
      rw [e, Real.sqrt_sq_eq_abs, hs])) 0 hn
    simpa using this
  have k1 := key r (abs_of_nonneg hr)
  have k2 := key (-r) (by rw [abs_neg, abs_of_nonneg hr])
  exact ⟨by linarith [k2.1], k1.2⟩

theorem IsCube.ball_of {n : ℕ} {D : Poly} {lo hi : ℝ} (h : IsCube n D lo hi) {c r : ℝ} (h1 : lo ≤ c - r) (h2 : c + r ≤ hi) : BallIn n D.A D.b D.C D.d (fun _ => c) r := fun v _ hv =>
  (h.mem _).2 fun i hi' => by
    have a1 : |v i| ≤ Real.sqrt (∑ j ∈ range n, v j ^ 2) := by
      rw [← Real.sqrt_sq_eq_abs]
      exact Real.sqrt_le_sqrt (Finset.single_le_sum (f := fun j => v j ^ 2) (fun j _ => sq_nonneg (v j)) (mem_range.2 hi'))
    have a2 := abs_le.1 (a1.trans hv)
    exact ⟨by linarith [a2.1], by linarith [a2.2]⟩

/-- boxes next to each other share no ball of positive radius -/
theorem cube_apart {n : ℕ} (hn : 0 < n) {D E : Poly} {a b c d : ℝ} (h1 : IsCube n D a b) (h2 : IsCube n E c d) (hbc : b ≤ c) {x : ℕ → ℝ} {r : ℝ} (h : SharedBall n D E x r) : r ≤ 0 := by
  by_contra hr
  push Not at hr
  have k1 := h1.ball hn hr.le h.1
  have k2 := h2.ball hn hr.le h.2
  linarith [k1.2, k2.1]

theorem pwa_init_same {nx nu : ℕ} (S : AffineSystem) (h1 : S.nx = nx) (h2 : S.nu = nu) (l : List Poly) (hl : l ≠ []) (hd : ∀ D ∈ l, D.A.nc = nx + nu) :
    PWA.init (List.replicate l.length (.aff S)) l = .ok ⟨nx, nu, List.replicate l.length S, l, l.length⟩ := by
  have hpos : l.length ≠ 0 := fun h => hl (List.length_eq_zero_iff.1 h)
  have o1 : onlyElement ((List.replicate l.length (Sys.aff S)).map Sys.nx) = .ok nx := onlyElement_iff.2 ⟨by simpa using hl, fun b hb => by
    rw [List.map_replicate] at hb
    rw [List.eq_of_mem_replicate hb]
    exact h1⟩
  have o2 : onlyElement ((List.replicate l.length (Sys.aff S)).map Sys.nu) = .ok nu := onlyElement_iff.2 ⟨by simpa using hl, fun b hb => by
    rw [List.map_replicate] at hb
    rw [List.eq_of_mem_replicate hb]
    exact h2⟩
  have o3 : onlyElement (l.map (·.A.nc)) = .ok (nx + nu) := onlyElement_iff.2 ⟨by simpa using hl, fun b hb => by
    obtain ⟨D, hD, rfl⟩ := List.mem_map.1 hb
    exact hd D hD⟩
  have o4 : ∀ k, (List.replicate k (Sys.aff S)).mapM (Sys.toAffine nx) = .ok (List.replicate k S) := fun k => by
    induction k with
    | zero => rfl
    | succ k ih =>
      rw [List.replicate_succ, List.mapM_cons, ih]
      rfl
  unfold PWA.init
  rw [if_neg (by simp)]
  show (onlyElement _ >>= _) = _
  rw [o1, Py.ok_bind, o2, Py.ok_bind, o3, Py.ok_bind, if_neg (by simp)]
  show (List.mapM _ _ >>= _) = _
  rw [o4, Py.ok_bind]
  show Except.ok _ = _
  rw [List.length_replicate]

/-- C186: `test_is_well_posed` passes, with any number of states and inputs. -/
theorem C186 (L : Lib) (hL : LibSpec L) (nx nu : ℕ) (hn : 0 < nx + nu) : test_is_well_posed L nx nu = .ok () := by
  obtain ⟨D0, I0, a1, a2, a3⟩ := cube_from_bounds (nx + nu) (-1) 1
  obtain ⟨D1, I1, b1, b2, b3⟩ := cube_from_bounds (nx + nu) 0 2
  obtain ⟨D2, I2, c1, c2, c3⟩ := cube_from_bounds (nx + nu) 2 3
  obtain ⟨E1, d1, d2⟩ := cube_raise b2 b3 (a := 1) (by norm_num)
  have hS := affine_init (nx := nx) (nu := nu) (A := ⟨nx, nx, fun _ _ => 1⟩) (B := ⟨nx, nu, fun _ _ => 1⟩) (c := ⟨nx, fun _ => 1⟩) ⟨rfl, rfl, rfl, rfl, rfl⟩
  generalize hSS : (⟨⟨nx, nx, fun _ _ => 1⟩, ⟨nx, nu, fun _ _ => 1⟩, ⟨nx, fun _ => 1⟩, nx, nu⟩ : AffineSystem) = S at hS
  have hS1 : S.nx = nx := by rw [← hSS]
  have hS2 : S.nu = nu := by rw [← hSS]
  have i1 := pwa_init_same S hS1 hS2 [D0, D1] (by simp) (fun D hD => by
    simp only [List.mem_cons, List.not_mem_nil, or_false] at hD
    rcases hD with rfl | rfl
    · exact a2.inv.1
    · exact b2.inv.1)
  have i2 := pwa_init_same S hS1 hS2 [D0, E1, D2] (by simp) (fun D hD => by
    simp only [List.mem_cons, List.not_mem_nil, or_false] at hD
    rcases hD with rfl | rfl | rfl
    · exact a2.inv.1
    · exact d2.inv.1
    · exact c2.inv.1)
  have w1 : PWA.is_well_posed L ⟨nx, nu, List.replicate 2 S, [D0, D1], 2⟩ = .ok false := by
    obtain ⟨w, k1, k2⟩ := C60_partial L hL (nx + nu) ⟨nx, nu, List.replicate 2 S, [D0, D1], 2⟩ 1e-7 (by norm_num) (fun i j hij D E hD hE => by
      have hj := (List.getElem?_eq_some_iff.1 hE).1
      simp only [List.length_cons, List.length_nil] at hj
      obtain ⟨rfl, rfl⟩ : i = 0 ∧ j = 1 := by omega
      cases hD
      cases hE
      exact ⟨a2.pair b2 (by norm_num) (by norm_num), 1, fun c r hr h => by
        have q1 := a2.ball hn hr h.1
        linarith [q1.1, q1.2]⟩)
    rw [k1]
    congr 1
    rw [← Bool.not_eq_true]
    intro hw
    have := k2.1 hw 0 1 (by norm_num) D0 D1 rfl rfl (fun _ => 1 / 2) (1 / 2) ⟨a2.ball_of (by norm_num) (by norm_num), b2.ball_of (by norm_num) (by norm_num)⟩
    norm_num at this
  have w2 : PWA.is_well_posed L ⟨nx, nu, List.replicate 3 S, [D0, E1, D2], 3⟩ = .ok true := by
    have hall : ∀ i j : ℕ, i < j → ∀ D E, [D0, E1, D2][i]? = some D → [D0, E1, D2][j]? = some E → PairOk (nx + nu) D E ∧ ∀ c r, SharedBall (nx + nu) D E c r → r ≤ 0 := by
      intro i j hij D E hD hE
      have hj := (List.getElem?_eq_some_iff.1 hE).1
      simp only [List.length_cons, List.length_nil] at hj
      obtain ⟨rfl, rfl⟩ | ⟨rfl, rfl⟩ | ⟨rfl, rfl⟩ : (i = 0 ∧ j = 1) ∨ (i = 0 ∧ j = 2) ∨ (i = 1 ∧ j = 2) := by omega
      · cases hD
        cases hE
        exact ⟨a2.pair d2 (by norm_num) (by norm_num), fun c r h => cube_apart hn a2 d2 le_rfl h⟩
      · cases hD
        cases hE
        exact ⟨a2.pair c2 (by norm_num) (by norm_num), fun c r h => cube_apart hn a2 c2 (by norm_num) h⟩
      · cases hD
        cases hE
        exact ⟨d2.pair c2 (by norm_num) (by norm_num), fun c r h => cube_apart hn d2 c2 le_rfl h⟩
    obtain ⟨w, k1, k2⟩ := C60_partial L hL (nx + nu) ⟨nx, nu, List.replicate 3 S, [D0, E1, D2], 3⟩ 1e-7 (by norm_num)
      (fun i j hij D E hD hE => ⟨(hall i j hij D E hD hE).1, 0, fun c r _ h => (hall i j hij D E hD hE).2 c r h⟩)
    rw [k1, k2.2 fun i j hij D E hD hE c r h => ((hall i j hij D E hD hE).2 c r h).trans (by norm_num)]
  have j1 : PWA.init [.aff S, .aff S] [D0, D1] = .ok ⟨nx, nu, List.replicate 2 S, [D0, D1], 2⟩ := i1
  have j2 : PWA.init [.aff S, .aff S, .aff S] [D0, E1, D2] = .ok ⟨nx, nu, List.replicate 3 S, [D0, E1, D2], 3⟩ := i2
  unfold test_is_well_posed
  rw [a1, Py.ok_bind, b1, Py.ok_bind, hS, Py.ok_bind, j1, Py.ok_bind, w1, Py.ok_bind]
  show (Poly.runOn D1 _ >>= _) = _
  rw [d1, Py.ok_bind, c1, Py.ok_bind, j2, Py.ok_bind, w2]
  rfl

/-- the sizes of the test -/
example : ∃ L, LibSpec L ∧ test_is_well_posed L 2 1 = .ok () := by
  obtain ⟨L, hL⟩ := exists_lib
  exact ⟨L, hL, C186 L hL 2 1 (by norm_num)⟩

end Verif.Props
