import Verif.Props.HybridDeadZone

/- A closed loop of the hybrid controller through two modes on which C100 and C101 are tried out. -/
namespace Verif.Props
open Finset Spec Dyn Control Filter Topology

/-- `x⁺ = x + u` for `-1 ≤ x ≤ 0` and `x⁺ = -x + u` for `0 ≤ x ≤ 1`, with `|u| ≤ 1` -/
noncomputable def fold : PWA :=
  ⟨1, 1, [⟨⟨1, 1, fun _ _ => 1⟩, ⟨1, 1, fun _ _ => 1⟩, ⟨1, fun _ => 0⟩, 1, 1⟩, ⟨⟨1, 1, fun _ _ => -1⟩, ⟨1, 1, fun _ _ => 1⟩, ⟨1, fun _ => 0⟩, 1, 1⟩],
    [strip (-1) 0, strip 0 1], 2⟩

/-- the origin -/
noncomputable def origin1 : Poly :=
  Poly.fresh ⟨2, 1, fun i _ => if i = 0 then 1 else -1⟩ ⟨2, fun _ => 0⟩ (Mat.zeros 0 1) (Vec.zeros 0)

theorem fold_pwa : PwaShape fold :=
  ⟨rfl, rfl, by show 0 < 2; norm_num, fun T hT => by
      simp only [fold, List.mem_cons, List.not_mem_nil, or_false] at hT
      rcases hT with rfl | rfl <;> exact ⟨⟨rfl, rfl, rfl, rfl, rfl⟩, rfl, rfl⟩, fun D hD => by
      simp only [fold, List.mem_cons, List.not_mem_nil, or_false] at hD
      rcases hD with rfl | rfl <;> exact ⟨rfl, rfl⟩⟩

theorem fold_args : HybArgs fold 1 one1 one1 one1 origin1 :=
  ⟨fold_pwa, one_pos, weights1.symQ, weights1.symP, ⟨rfl, rfl⟩, ⟨rfl, rfl⟩⟩

theorem fold_good : GoodDomains fold where
  shape j hj := hinge_good.shape j hj
  rows j hj := hinge_good.rows j hj
  ne j hj := hinge_good.ne j hj
  bounded j hj := hinge_good.bounded j hj

theorem fold_ok : PwaOk fold :=
  ⟨rfl, fun T hT => by
      simp only [fold, List.mem_cons, List.not_mem_nil, or_false] at hT
      rcases hT with rfl | rfl <;> exact ⟨rfl, rfl, rfl, rfl, rfl⟩, fun D hD => by
      simp only [fold, List.mem_cons, List.not_mem_nil, or_false] at hD
      rcases hD with rfl | rfl <;> exact ⟨⟨rfl, rfl, rfl, rfl⟩, by show 0 < 4; norm_num⟩⟩

theorem fold_int : IntSys fold :=
  ⟨rfl, rfl, fun T hT => by
      simp only [fold, List.mem_cons, List.not_mem_nil, or_false] at hT
      rcases hT with rfl | rfl
      · exact ⟨1, 0, Or.inl rfl, by norm_num⟩
      · exact ⟨-1, 0, Or.inr rfl, by norm_num⟩, fun D hD => by
      simp only [fold, List.mem_cons, List.not_mem_nil, or_false] at hD
      rcases hD with rfl | rfl
      · exact ⟨-1, 0, by norm_num, by norm_num⟩
      · exact ⟨0, 1, by norm_num, by norm_num⟩⟩

theorem fold_noEq : (hyb fold 1 one1 one1 one1 origin1).NoEq := by
  refine ⟨fun i hi => ?_, rfl⟩
  obtain ⟨lo, hi, -, -, -, e⟩ := hinge_dom hi
  show (domAt fold i).C.nr = 0
  rw [show domAt fold i = domAt hinge i from rfl, e]
  rfl

theorem origin1_term (x : ℕ → ℝ) : IneqHold origin1.A origin1.b x ↔ x 0 = 0 := by
  constructor
  · intro h
    have h0 := h 0 (by show 0 < 2; norm_num)
    have h1 := h 1 (by show 1 < 2; norm_num)
    simp [origin1, Poly.fresh, rowVal] at h0 h1
    exact le_antisymm h0 h1
  · rintro h i hi
    have hi : i < 2 := hi
    interval_cases i <;> simp [origin1, Poly.fresh, rowVal, h]

theorem fold_decrease : (hyb fold 1 one1 one1 one1 origin1).TerminalDecrease := by
  rintro x ⟨hx, -⟩
  have h0 := (origin1_term x).1 hx
  have hn : (hyb fold 1 one1 one1 one1 origin1).next 1 x (fun _ => 0) 0 = 0 := by
    simp [HybOcp.next, hyb, fold, Spec.affine, h0]
  refine ⟨1, by show 1 < 2; norm_num, fun _ => 0, ⟨?_, eqHold_of_noEq rfl _⟩, ⟨?_, eqHold_of_noEq rfl _⟩, ?_⟩
  · exact ((strip_mem (lo := 0) (hi := 1) _).2 (by norm_num [pair, hyb, fold, h0])).1
  · exact (origin1_term _).2 hn
  · show 1 / 2 * quad one1 _ + 1 / 2 * (quad one1 x + quad one1 _) ≤ 1 / 2 * quad one1 x
    rw [one1_quad, one1_quad, one1_quad, hn, h0]
    norm_num

theorem fold_noTiny {L : Lib} (hL : LibSpec L) {c : HMPC} (hrun : HMPC.init L fold 1 one1 one1 one1 origin1 = .ok c) (n : ℤ) :
    MiNoTiny c.mpmiqp (fun _ => (n : ℝ)) := by
  have z : ∀ (a : ℝ) (n : ℤ), a = n → NotTiny a := fun a n e => e ▸ notTiny_int n
  refine intSys_noTiny hL fold_args fold_good fold_int hrun all_one1 all_one1 all_one1
    ⟨fun i hi j hj => ?_, fun i hi => z _ 0 (by simp [origin1, Poly.fresh])⟩ n
  have hi : i < 2 := hi
  interval_cases i
  · exact z _ 1 (by simp [origin1, Poly.fresh])
  · exact z _ (-1) (by simp [origin1, Poly.fresh])

/-- one step of the closed loop from the states `0` and `1`: to the origin, where all the modes that `simulate` may choose agree -/
theorem fold_step {L : Lib} (hL : LibSpec L) {G : Gurobi} (hG : GurobiSpec G) {c : HMPC} (hrun : HMPC.init L fold 1 one1 one1 one1 origin1 = .ok c)
    {x : Vec ℝ} (hx : x.n = 1) (h01 : x.e 0 = 0 ∨ x.e 0 = 1) :
    MiNoTiny c.mpmiqp x.e ∧ ∃ p : Vec ℝ × Vec ℝ, c.feedback G x = .ok (some p.1) ∧ (∃ m, fold.simulate x [p.1] = .ok ([x, p.2], [m])) ∧
      ModesAgree fold x p.1 ∧ p.1.e 0 = x.e 0 ∧ p.2.n = 1 ∧ p.2.e 0 = 0 := by
  obtain ⟨-, -, -, hsh, -, -⟩ := init_inv fold_args hrun
  have ht : MiNoTiny c.mpmiqp x.e := by
    have hk : ∀ (n : ℤ), x.e 0 = n → MiNoTiny c.mpmiqp x.e := fun n hn =>
      miNoTiny_congr hsh (fun i hi => by
        have hi : i < 1 := hi
        obtain rfl : i = 0 := by omega
        exact hn.symm) (fold_noTiny hL hrun n)
    rcases h01 with h | h
    · exact hk 0 (by simp [h])
    · exact hk 1 (by simp [h])
  refine ⟨ht, ?_⟩
  obtain ⟨ans, hex⟩ := hybrid_answer hL hG fold_args weights1 one_pos fold_good fold_noEq hrun hx ht
  have hpos : 0 ≤ x.e 0 ∧ x.e 0 ≤ 1 := by rcases h01 with h | h <;> rw [h] <;> norm_num
  have hf : (hyb fold 1 one1 one1 one1 origin1).Feas x.e (fun _ => 1) (fun _ _ => x.e 0) := by
    refine ⟨⟨fun t ht => by show 1 < 2; norm_num, fun t ht => ?_, ?_⟩, fun t _ => eqHold_of_noEq rfl _, eqHold_of_noEq rfl _⟩
    · have ht : t < 1 := ht
      interval_cases t
      exact ((strip_mem (lo := 0) (hi := 1) _).2 (by simp [pair, hyb, fold, HybOcp.x, Spec.traj]; exact ⟨hpos.2, hpos.1, hpos.2, by linarith⟩)).1
    · exact (origin1_term _).2 (by norm_num [HybOcp.x, Spec.traj, Spec.affine, hyb, fold])
  obtain ⟨v, hv⟩ := hex ⟨_, _, hf⟩
  obtain ⟨a, -, vn, ve, -, vo⟩ := ans v hv
  have vn : v.n = 1 := vn
  -- the input leads to the origin
  have hv0 : v.e 0 = x.e 0 := by
    obtain ⟨⟨m1, m2, m3⟩, -⟩ := vo.1
    have m1 : a.modes.getD 0 0 < 2 := m1 0 one_pos
    have m2 := m2 0 one_pos
    have m3 := (origin1_term _).1 m3
    simp only [HybOcp.x, Spec.traj, Spec.affine, hyb] at m3
    rw [ve] at m2 m3
    dsimp only at m2
    obtain e | e : a.modes.getD 0 0 = 0 ∨ a.modes.getD 0 0 = 1 := by omega
    · rw [e] at m2 m3
      have h4 := ((strip_mem (lo := -1) (hi := 0) _).1 ⟨m2, eqHold_of_noEq rfl _⟩).1
      simp [pair, hyb, fold, HybOcp.x, Spec.traj] at h4 m3
      linarith
    · rw [e] at m3
      simp [fold] at m3
      linarith
  have e0 : (x.append v).e 0 = x.e 0 := Vec.append_e_lt _ _ (by omega)
  have e1 : (x.append v).e 1 = x.e 0 := by
    have := Vec.append_e_add x v 0
    rw [hx] at this
    exact this.trans hv0
  have hagr : ModesAgree fold x v := by
    have key : ∀ i < 2, InsideTol 1e-7 (domAt fold i) (x.append v).e → ∀ k < 1,
        Spec.affine (sysAt fold i).A (sysAt fold i).B (sysAt fold i).c x.e v.e k = 0 := by
      intro i hi hin k hk
      obtain rfl : k = 0 := by omega
      interval_cases i
      · have h4 : rowVal _ 0 _ ≤ _ := hin.1 0 (by show 0 < 4; norm_num)
        have h5 : rowVal (domAt fold 0).A 0 (x.append v).e = (x.append v).e 0 := (strip_rows 0 (by norm_num) (-1) 0 _).trans (if_pos rfl)
        rw [h5, e0] at h4
        have h6 : x.e 0 ≤ 0 + 1e-7 := h4
        rcases h01 with h | h
        · simp [Spec.affine, fold, hv0, h]
        · rw [h] at h6
          norm_num at h6
      · simp [Spec.affine, fold, hv0]
    intro i hi j hj h1 h2 k hk
    rw [key i hi h1 k hk, key j hj ⟨fun l hl => ?_, fun hp => ?_⟩ k hk]
    · have h3 : rowVal _ l _ ≤ _ := h2 l hl
      linarith [show (0 : ℝ) ≤ 1e-7 by norm_num]
    · rw [show (domAt fold j).C.nr = 0 from fold_noEq.1 j hj] at hp
      exact absurd hp (lt_irrefl 0)
  obtain ⟨y, m, hy⟩ := simulate_step fold_ok (x := x) (u := v) hx vn (j := 1) (by show 1 < 2; norm_num) rfl
    ((strip_mem (lo := 0) (hi := 1) _).2 (by rw [e0, e1]; exact ⟨hpos.2, hpos.1, hpos.2, by linarith⟩)).1
  obtain ⟨⟨⟨D, hD, hins⟩, -⟩, yn, ye⟩ := simulate_one fold_ok hx vn hy
  refine ⟨(v, y), hv, ⟨m, hy⟩, hagr, hv0, yn, ?_⟩
  have hm : m < 2 := (List.getElem?_eq_some_iff.1 hD).1
  have hDm : D = domAt fold m := by
    rw [List.getElem?_eq_some_iff] at hD
    obtain ⟨hlt, rfl⟩ := hD
    rw [← List.getD_eq_getElem _ poly0 hlt]
  rw [ye 0 one_pos, hagr m hm 1 (by show 1 < 2; norm_num) (hDm ▸ hins)
    ((strip_mem (lo := 0) (hi := 1) _).2 (by rw [e0, e1]; exact ⟨hpos.2, hpos.1, hpos.2, by linarith⟩)).1 0 one_pos]
  simp [Spec.affine, fold, hv0]

/-- C100 and C101 on the example: the closed loop from `1` is `1, 0, 0, …`, all the hypotheses hold along it -/
example (L : Lib) (hL : LibSpec L) (G : Gurobi) (hG : GurobiSpec G) : ∃ c, HMPC.init L fold 1 one1 one1 one1 origin1 = .ok c ∧
    ∃ x u : ℕ → Vec ℝ, (x 0).e 0 = 1 ∧ (u 0).e 0 = 1 ∧ (∀ T, HybridLoop G c fold x u T) ∧ (∀ t, MiNoTiny c.mpmiqp (x t).e) ∧ (∀ t, ModesAgree fold (x t) (u t)) ∧
      Tendsto (fun t => (x t).e 0) atTop (𝓝 0) ∧ ∀ a, c.feedforward G (x 0) = .ok (some a) → 1 ≤ a.V := by
  obtain ⟨c, hrun, -, -⟩ := C72 L hL fold 1 one1 one1 one1 origin1 fold_args one_pos fold_good
  have hstep : ∀ x : Vec ℝ, x.n = 1 ∧ (x.e 0 = 0 ∨ x.e 0 = 1) → ∃ p : Vec ℝ × Vec ℝ, c.feedback G x = .ok (some p.1) ∧
      (∃ m, fold.simulate x [p.1] = .ok ([x, p.2], [m])) ∧ ModesAgree fold x p.1 ∧ p.1.e 0 = x.e 0 ∧ p.2.n = 1 ∧ p.2.e 0 = 0 :=
    fun x hx => (fold_step hL hG hrun hx.1 hx.2).2
  choose! p hp1 hp2 hp3 hp4 hp5 hp6 using hstep
  let x : ℕ → Vec ℝ := fun t => Nat.rec ⟨1, fun _ => 1⟩ (fun _ y => (p y).2) t
  have hinv : ∀ t, (x t).n = 1 ∧ ((x t).e 0 = 0 ∨ (x t).e 0 = 1) := by
    intro t
    induction t with
    | zero => exact ⟨rfl, Or.inr rfl⟩
    | succ t ih => exact ⟨hp5 _ ih, Or.inl (hp6 _ ih)⟩
  have hl : ∀ T, HybridLoop G c fold x (fun t => (p (x t)).1) T := fun T => ⟨rfl, fun t _ => ⟨hp1 _ (hinv t), hp2 _ (hinv t)⟩⟩
  have ht : ∀ t, MiNoTiny c.mpmiqp (x t).e := fun t => (fold_step hL hG hrun (hinv t).1 (hinv t).2).1
  have hagr : ∀ t, ModesAgree fold (x t) (p (x t)).1 := fun t => hp3 _ (hinv t)
  refine ⟨c, hrun, x, fun t => (p (x t)).1, rfl, hp4 _ (hinv 0), hl, ht, hagr, ?_, fun a ha => ?_⟩
  · refine (C101_partial L hL G hG _ _ _ _ _ _ fold_args weights1 one_pos fold_good fold_ok fold_noEq c hrun ?_ fold_decrease).2 x _ hl ht hagr 0 one_pos
    rintro x ⟨i, hi, hx⟩
    have hi : i < 1 := hi
    obtain rfl : i = 0 := by omega
    rw [one1_quad]
    positivity
  · have := ((C100_partial L hL G hG _ _ _ _ _ _ fold_args weights1 one_pos fold_good fold_ok fold_noEq c hrun x _ 1 (hl 1) (fun t _ => ht t)
      (fun t _ => hagr t)).2 fold_decrease).2 a ha
    rw [Finset.sum_range_one] at this
    refine le_trans (le_of_eq ?_) this
    show 1 = 1 / 2 * (quad one1 _ + quad one1 _)
    rw [one1_quad, one1_quad, hp4 _ (hinv 0), show (x 0).e 0 = 1 from rfl]
    norm_num

end Verif.Props
