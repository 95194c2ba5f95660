import Verif.Props.HybridLoopFalse
import Verif.Props.MiDrop

/- The closed loop of the hybrid controller near the origin: C101 of properties.jsonl. -/
namespace Verif.Props
open Finset Spec Dyn Control Filter Topology

/-- the value of a computation that does not raise -/
noncomputable def okD {α : Type} (a : α) : Py α → α
  | .ok b => b
  | .error _ => a

/-- the constraints of the program of `oneMode` over one step, for given big-M constants -/
noncomputable def dzE (ea eb eg : ℕ → ℕ → ℝ) : Ineqs := okD ⟨one1, one1, one1, one1, ⟨0, fun _ => 0⟩⟩
  (build_inequalities oneMode [[⟨1, 1, ea⟩]] [[⟨1, 1, eb⟩]] [[⟨4, 1, eg⟩]] >>= condense_inequalities 1 interval1)

/-- the matrices of the states in the program -/
noncomputable def dzA : Mat ℝ × Mat ℝ := okD (one1, one1) (condense_equalities 1 1 1)

/-- the weights of the states -/
noncomputable def dzQ : Mat ℝ := np.block_diag [one1, weight 2]

/-- the program of `oneMode` over one step, for given big-M constants -/
noncomputable def dz (ea eb eg : ℕ → ℕ → ℝ) : MpMIQP := okD ⟨one1, one1, one1, one1, one1, one1, one1, one1, ⟨0, fun _ => 0⟩⟩
  (assemble 1 one1 one1 (weight 2) (dzE ea eb eg) dzA.1 dzA.2)

theorem dz_eq (ea eb eg : ℕ → ℕ → ℝ) :
    condense_hybrid oneMode 1 one1 one1 (weight 2) interval1 [[⟨1, 1, ea⟩]] [[⟨1, 1, eb⟩]] [[⟨4, 1, eg⟩]] = .ok (dz ea eb eg) := rfl

theorem sum_two (f : ℕ → ℝ) : ∑ k ∈ range 2, f k = f 0 + f 1 := by rw [Finset.sum_range_succ, Finset.sum_range_one]

theorem dz_Ax (ea eb eg : ℕ → ℕ → ℝ) (i : ℕ) :
    (dz ea eb eg).Ax.e i 0 = (dzE ea eb eg).x.e i 0 * dzA.1.e 0 0 + (dzE ea eb eg).x.e i 1 * dzA.1.e 1 0 :=
  sum_two fun k => (dzE ea eb eg).x.e i k * dzA.1.e k 0

theorem dz_Az (ea eb eg : ℕ → ℕ → ℝ) (i : ℕ) :
    (dz ea eb eg).Az.e i 0 = (dzE ea eb eg).z.e i 0 + ((dzE ea eb eg).x.e i 0 * dzA.2.e 0 0 + (dzE ea eb eg).x.e i 1 * dzA.2.e 1 0) :=
  congrArg _ (sum_two fun k => (dzE ea eb eg).x.e i k * dzA.2.e k 0)

theorem dzA1 : dzA.1.e 0 0 = 1 := rfl
theorem dzA2 : dzA.1.e 1 0 = 0 := rfl
theorem dzA3 : dzA.2.e 0 0 = 0 := rfl
theorem dzA4 : dzA.2.e 1 0 = 1 := rfl

theorem dz_Hzz (ea eb eg : ℕ → ℕ → ℝ) : (dz ea eb eg).Hzz.e 0 0 = 2 := by
  have h : (dz ea eb eg).Hzz.e 0 0 = (∑ l ∈ range 2, dzA.2.e l 0 * dzQ.e l 0) * dzA.2.e 0 0 + (∑ l ∈ range 2, dzA.2.e l 0 * dzQ.e l 1) * dzA.2.e 1 0 :=
    sum_two fun k => (∑ l ∈ range 2, dzA.2.e l 0 * dzQ.e l k) * dzA.2.e k 0
  rw [h, sum_two, sum_two, dzA3, dzA4, show dzQ.e 1 1 = 2 from rfl]
  ring

theorem dz_Hzx (ea eb eg : ℕ → ℕ → ℝ) : (dz ea eb eg).Hzx.e 0 0 = 0 := by
  have h : (dz ea eb eg).Hzx.e 0 0 = (∑ l ∈ range 2, dzA.2.e l 0 * dzQ.e l 0) * dzA.1.e 0 0 + (∑ l ∈ range 2, dzA.2.e l 0 * dzQ.e l 1) * dzA.1.e 1 0 :=
    sum_two fun k => (∑ l ∈ range 2, dzA.2.e l 0 * dzQ.e l k) * dzA.1.e k 0
  rw [h, sum_two, sum_two, dzA1, dzA2, dzA3, dzA4, show dzQ.e 1 0 = 0 from rfl]
  ring

/-- the rows of the constraints that Gurobi sees at `x = 5e-10` -/
theorem dz_rows {ea eb eg : ℕ → ℕ → ℝ} {x : ℕ → ℝ} (hx : x 0 = 5e-10) (i : ℕ) :
    drop 1e-9 ((dz ea eb eg).b.e i - rowVal (dz ea eb eg).Ax i x)
      = drop 1e-9 ((dzE ea eb eg).h.e i - (dzE ea eb eg).x.e i 0 * 5e-10) := by
  have h : rowVal (dz ea eb eg).Ax i x = (dz ea eb eg).Ax.e i 0 * x 0 := Finset.sum_range_one _
  rw [h, dz_Ax, dzA1, dzA2, hx, mul_one, mul_zero, add_zero]
  rfl

/-- zero input and zero next state are feasible for the program that Gurobi sees -/
theorem dz_feas {ea eb eg : ℕ → ℕ → ℝ} (ha : ea 0 0 ≤ 0) (hb : 0 ≤ eb 0 0) {x : ℕ → ℝ} (hx : x 0 = 5e-10) :
    MiFeas (seen (dz ea eb eg) x).Au (seen (dz ea eb eg) x).Az (seen (dz ea eb eg) x).Ad (seen (dz ea eb eg) x).Ax (seen (dz ea eb eg) x).b
      (fun _ => 0) (fun _ => 0) (fun _ => 1) (fun _ => 1) := by
  intro i hi
  have hi : i < 12 := hi
  have h0 : ∀ A : Mat ℝ, rowVal A i (fun _ => 0) = 0 := fun A => by simp [rowVal]
  have hd : rowVal (seen (dz ea eb eg) x).Ad i (fun _ => 1) = drop 1e-9 ((dzE ea eb eg).d.e i 0) := (Finset.sum_range_one _).trans (mul_one _)
  have hA : rowVal (seen (dz ea eb eg) x).Ax i (fun _ => 1) = 0 := rowVal_zeros _ _ _ _
  rw [h0, h0, hd, hA, zero_add, zero_add, add_zero]
  show _ ≤ drop 1e-9 ((dz ea eb eg).b.e i - rowVal (dz ea eb eg).Ax i x)
  rw [dz_rows hx]
  have hneg : ∀ {a : ℝ}, a ≤ 0 → drop 1e-9 a ≤ 0 := fun {a} h => by unfold drop; split_ifs <;> linarith
  have hpos : ∀ {a : ℝ}, 0 ≤ a → 0 ≤ drop 1e-9 a := fun {a} h => by unfold drop; split_ifs <;> linarith
  have d1 : drop 1e-9 (1 : ℝ) = 1 := drop_of_gt (by norm_num)
  have z0 := drop_zero (1e-9)
  interval_cases i
  · rw [show (dzE ea eb eg).h.e 0 = 0 from rfl, show (dzE ea eb eg).x.e 0 0 = 0 from rfl, show (dzE ea eb eg).d.e 0 0 = ea 0 0 from rfl, zero_mul, sub_zero, z0]
    exact hneg ha
  · rw [show (dzE ea eb eg).h.e 1 = 0 from rfl, show (dzE ea eb eg).x.e 1 0 = 0 from rfl, show (dzE ea eb eg).d.e 1 0 = - eb 0 0 from rfl, zero_mul, sub_zero, z0]
    exact hneg (by linarith)
  · rw [show (dzE ea eb eg).h.e 2 = 0 from rfl, show (dzE ea eb eg).x.e 2 0 = -1 from rfl, show (dzE ea eb eg).d.e 2 0 = 0 from rfl, z0]
    exact hpos (by norm_num)
  · rw [show (dzE ea eb eg).h.e 3 = -0 from rfl, show (dzE ea eb eg).x.e 3 0 = 1 from rfl, show (dzE ea eb eg).d.e 3 0 = -0 from rfl, neg_zero, z0,
      drop_of_not (by norm_num)]
  · rw [show (dzE ea eb eg).h.e 4 = 1 from rfl, show (dzE ea eb eg).x.e 4 0 = 1 from rfl, show (dzE ea eb eg).d.e 4 0 = -0 from rfl, neg_zero, z0]
    exact hpos (by norm_num)
  · rw [show (dzE ea eb eg).h.e 5 = - -1 from rfl, show (dzE ea eb eg).x.e 5 0 = -1 from rfl, show (dzE ea eb eg).d.e 5 0 = -0 from rfl, neg_zero, z0]
    exact hpos (by norm_num)
  · rw [show (dzE ea eb eg).h.e 6 = 1 from rfl, show (dzE ea eb eg).x.e 6 0 = 0 from rfl, show (dzE ea eb eg).d.e 6 0 = -0 from rfl, neg_zero, z0]
    exact hpos (by norm_num)
  · rw [show (dzE ea eb eg).h.e 7 = 1 from rfl, show (dzE ea eb eg).x.e 7 0 = 0 from rfl, show (dzE ea eb eg).d.e 7 0 = -0 from rfl, neg_zero, z0]
    exact hpos (by norm_num)
  · rw [show (dzE ea eb eg).h.e 8 = 1 from rfl, show (dzE ea eb eg).x.e 8 0 = 0 from rfl, show (dzE ea eb eg).d.e 8 0 = 1 from rfl, zero_mul, sub_zero]
  · rw [show (dzE ea eb eg).h.e 9 = -1 from rfl, show (dzE ea eb eg).x.e 9 0 = 0 from rfl, show (dzE ea eb eg).d.e 9 0 = -1 from rfl, zero_mul, sub_zero]
  · rw [show (dzE ea eb eg).h.e 10 = 1 from rfl, show (dzE ea eb eg).x.e 10 0 = 0 from rfl, show (dzE ea eb eg).d.e 10 0 = 0 from rfl, z0]
    exact hpos (by norm_num)
  · rw [show (dzE ea eb eg).h.e 11 = 1 from rfl, show (dzE ea eb eg).x.e 11 0 = 0 from rfl, show (dzE ea eb eg).d.e 11 0 = 0 from rfl, z0]
    exact hpos (by norm_num)

/-- the last constraint on the modes: one of them is active -/
theorem dz_mode {ea eb eg : ℕ → ℕ → ℝ} {x u z d : ℕ → ℝ} (hx : x 0 = 5e-10) (hd : Binary 1 d)
    (h : MiFeas (seen (dz ea eb eg) x).Au (seen (dz ea eb eg) x).Az (seen (dz ea eb eg) x).Ad (seen (dz ea eb eg) x).Ax (seen (dz ea eb eg) x).b
      u z d (fun _ => 1)) : d 0 = 1 := by
  have h9 := h 9 (by show 9 < 12; norm_num)
  have e1 : rowVal (seen (dz ea eb eg) x).Ad 9 d = drop 1e-9 ((dzE ea eb eg).d.e 9 0) * d 0 := Finset.sum_range_one _
  have e2 : rowVal (seen (dz ea eb eg) x).Au 9 u = drop 1e-9 ((dzE ea eb eg).u.e 9 0) * u 0 := Finset.sum_range_one _
  have e3 : rowVal (seen (dz ea eb eg) x).Az 9 z = drop 1e-9 ((dz ea eb eg).Az.e 9 0) * z 0 := Finset.sum_range_one _
  have e4 : rowVal (seen (dz ea eb eg) x).Ax 9 (fun _ => 1) = 0 := rowVal_zeros _ _ _ _
  have e5 : (seen (dz ea eb eg) x).b.e 9 = drop 1e-9 ((dz ea eb eg).b.e 9 - rowVal (dz ea eb eg).Ax 9 x) := rfl
  rw [e1, e2, e3, e4, e5, dz_rows hx, dz_Az, dzA3, dzA4, show (dzE ea eb eg).h.e 9 = -1 from rfl, show (dzE ea eb eg).x.e 9 0 = 0 from rfl,
    show (dzE ea eb eg).x.e 9 1 = 0 from rfl, show (dzE ea eb eg).d.e 9 0 = -1 from rfl, show (dzE ea eb eg).u.e 9 0 = 0 from rfl,
    show (dzE ea eb eg).z.e 9 0 = 0 from rfl] at h9
  have d1 : drop 1e-9 (-1 : ℝ) = -1 := drop_of_gt (by norm_num)
  simp only [zero_mul, sub_zero, mul_one, add_zero, zero_add, drop_zero, d1] at h9
  rcases hd 0 one_pos with h0 | h0
  · rw [h0] at h9
    norm_num at h9
  · exact h0

/-- the cost that Gurobi sees -/
theorem dz_cost (ea eb eg : ℕ → ℕ → ℝ) (x u z : ℕ → ℝ) :
    miCost (seen (dz ea eb eg) x).Huu (seen (dz ea eb eg) x).Hzz (seen (dz ea eb eg) x).Hzx (seen (dz ea eb eg) x).Hxx u z (fun _ => 1)
      = 1 / 2 * u 0 ^ 2 + z 0 ^ 2 + 1 / 2 * quad (dz ea eb eg).Hxx x := by
  have e1 : quad (seen (dz ea eb eg) x).Huu u = u 0 ^ 2 := by
    have : quad (seen (dz ea eb eg) x).Huu u = ∑ i ∈ range 1, ∑ j ∈ range 1, u i * drop 1e-9 ((dz ea eb eg).Huu.e i j) * u j := rfl
    rw [this, Finset.sum_range_one, Finset.sum_range_one, show (dz ea eb eg).Huu.e 0 0 = 1 from rfl, drop_of_gt (by norm_num)]
    ring
  have e2 : quad (seen (dz ea eb eg) x).Hzz z = 2 * z 0 ^ 2 := by
    have : quad (seen (dz ea eb eg) x).Hzz z = ∑ i ∈ range 1, ∑ j ∈ range 1, z i * drop 1e-9 ((dz ea eb eg).Hzz.e i j) * z j := rfl
    rw [this, Finset.sum_range_one, Finset.sum_range_one, dz_Hzz, drop_of_gt (by norm_num)]
    ring
  have e3 : ∑ i ∈ range (seen (dz ea eb eg) x).Hzx.nr, ∑ j ∈ range (seen (dz ea eb eg) x).Hzx.nc, z i * (seen (dz ea eb eg) x).Hzx.e i j * 1 = 0 := by
    have : rowVal (dz ea eb eg).Hzx 0 x = 0 := by
      have h : rowVal (dz ea eb eg).Hzx 0 x = (dz ea eb eg).Hzx.e 0 0 * x 0 := Finset.sum_range_one _
      rw [h, dz_Hzx, zero_mul]
    have h : ∑ i ∈ range 1, ∑ j ∈ range 1, z i * drop 1e-9 (rowVal (dz ea eb eg).Hzx i x) * 1 = 0 := by
      rw [Finset.sum_range_one, Finset.sum_range_one, this, drop_zero]
      ring
    exact h
  have e4 : quad (seen (dz ea eb eg) x).Hxx (fun _ => 1) = quad (dz ea eb eg).Hxx x := by simp [quad, seen]
  unfold miCost
  rw [e1, e2, e3, e4]
  ring

theorem dz_args : HybArgs oneMode 1 one1 one1 (weight 2) interval1 :=
  ⟨oneMode_pwa, one_pos, weights1.symQ, ⟨rfl, rfl, fun _ _ _ _ => rfl⟩, ⟨rfl, rfl⟩, ⟨rfl, rfl⟩⟩

/-- big-M constants of one mode -/
theorem bigM_one {n : ℕ} {M : List (List (Mat ℝ))} (h : IsBigM 1 [n] M) : ∃ e, M = [[⟨n, 1, e⟩]] ∧ e 0 0 = bm M 0 0 0 := by
  obtain ⟨-, h1, h2, h3⟩ := h
  obtain ⟨r, rfl⟩ := List.length_eq_one_iff.1 h1
  have h2 := h2 0 one_pos
  simp only [List.getD_cons_zero] at h2
  obtain ⟨A, rfl⟩ := List.length_eq_one_iff.1 h2
  have h3 := h3 0 one_pos 0 one_pos
  simp only [List.getD_cons_zero] at h3
  obtain ⟨nr, nc, e⟩ := A
  simp only at h3
  obtain ⟨rfl, rfl⟩ := h3
  exact ⟨e, rfl, rfl⟩

/-- in the state `5e-10` the controller of `oneMode` answers zero -/
theorem dz_answer {L : Lib} (hL : LibSpec L) {G : Gurobi} (hG : GurobiSpec G) {c : HMPC}
    (hrun : HMPC.init L oneMode 1 one1 one1 (weight 2) interval1 = .ok c) {x : Vec ℝ} (hx : x.n = 1) (hx0 : x.e 0 = 5e-10) :
    ∃ u, c.feedback G x = .ok (some u) ∧ u.n = 1 ∧ u.e 0 = 0 := by
  obtain ⟨⟨cS, cN, -⟩, -, -, hsh, -, -⟩ := init_inv dz_args hrun
  have hrun' := hrun
  unfold HMPC.init at hrun'
  obtain ⟨⟨al, be⟩, h1, hrun'⟩ := Py.bind_eq_ok hrun'
  obtain ⟨ga, h2, hrun'⟩ := Py.bind_eq_ok hrun'
  obtain ⟨q, h3, hrun'⟩ := Py.bind_eq_ok hrun'
  obtain ⟨a1, a2, -, -⟩ := bigM_dynamics_inv oneMode_pwa h1
  obtain ⟨a3, -, -⟩ := bigM_domains_inv oneMode_pwa h2
  obtain ⟨al', be', ga', k1, -, k3, -⟩ := C70 L hL oneMode oneMode_pwa one_pos oneMode_good
  rw [h1] at k1
  obtain ⟨rfl, rfl⟩ := Prod.mk.inj (Except.ok.inj k1)
  obtain ⟨m1, m2⟩ := k3 0 one_pos 0 one_pos 0 one_pos
  have hmem : ∃ y v : ℕ → ℝ, InPoly (domAt oneMode 0).A (domAt oneMode 0).b (domAt oneMode 0).C (domAt oneMode 0).d (pair oneMode.nx y v) ∧
      (0 : ℝ) = Spec.affine (sysAt oneMode 0).A (sysAt oneMode 0).B (sysAt oneMode 0).c y v 0 :=
    ⟨fun _ => 0, fun _ => 0, (strip_mem (lo := -1) (hi := 1) _).2 (by norm_num [pair]), by simp [Spec.affine, oneMode]⟩
  have hal := m1.2 hmem
  have hbe := m2.2 hmem
  obtain ⟨ea, rfl, ha⟩ := bigM_one (n := 1) a1
  obtain ⟨eb, rfl, hb⟩ := bigM_one (n := 1) a2
  obtain ⟨eg, rfl, -⟩ := bigM_one (n := 4) a3
  rw [← ha] at hal
  rw [← hb] at hbe
  have hq : q = dz ea eb eg := Except.ok.inj (h3.symm.trans (dz_eq ea eb eg))
  have hc : c.mpmiqp = dz ea eb eg := by
    cases hrun'
    exact hq
  rw [hc] at hsh
  -- C102 applies
  obtain ⟨s, s1, s2, s3, s4⟩ := C102 G hG _ _ _ _ (dz ea eb eg) hsh x hx
  have hf := dz_feas (eg := eg) hal hbe hx0
  have hbin : Binary (oneMode.nm * 1) (fun _ => (1 : ℝ)) := fun _ _ => Or.inr rfl
  cases hm : s.min with
  | none =>
    exfalso
    refine s2.1 hm ⟨_, _, _, ⟨hbin, hf⟩, fun u' z' d' _ _ => ?_⟩
    show miCost (seen (dz ea eb eg) x.e).Huu (seen (dz ea eb eg) x.e).Hzz (seen (dz ea eb eg) x.e).Hzx (seen (dz ea eb eg) x.e).Hxx _ _ _ ≤
      miCost (seen (dz ea eb eg) x.e).Huu (seen (dz ea eb eg) x.e).Hzz (seen (dz ea eb eg) x.e).Hzx (seen (dz ea eb eg) x.e).Hxx _ _ _
    rw [dz_cost, dz_cost]
    nlinarith [_root_.sq_nonneg (u' 0), _root_.sq_nonneg (z' 0)]
  | some V =>
    obtain ⟨u, z, d, e1, e2, e3, n1, n2, n3, ho, -⟩ := s4 V hm
    have hle := ho.2 _ _ _ hbin hf
    change miCost (seen (dz ea eb eg) x.e).Huu (seen (dz ea eb eg) x.e).Hzz (seen (dz ea eb eg) x.e).Hzx (seen (dz ea eb eg) x.e).Hxx _ _ _ ≤
      miCost (seen (dz ea eb eg) x.e).Huu (seen (dz ea eb eg) x.e).Hzz (seen (dz ea eb eg) x.e).Hzx (seen (dz ea eb eg) x.e).Hxx _ _ _ at hle
    rw [dz_cost, dz_cost] at hle
    have hu0 : u.e 0 = 0 := by nlinarith [_root_.sq_nonneg (u.e 0), _root_.sq_nonneg (z.e 0)]
    have hd := dz_mode hx0 ho.1.1 ho.1.2
    obtain ⟨a, b1, -, b3, b4, b5, -⟩ := HMPC.unpack_ok (S := oneMode) (N := 1) (x := x) (V := V) (m := fun _ => 0) one_pos n1 n2 n3 (fun t ht => ⟨one_pos, fun i hi => by
      have hi : i < 1 := hi
      obtain rfl : t = 0 := by omega
      obtain rfl : i = 0 := by omega
      rw [if_pos rfl]
      exact hd⟩)
    have hff : c.feedforward G x = .ok (some a) := by
      unfold HMPC.feedforward
      rw [hc, s1, Py.ok_bind]
      simp only [hm, e1, e2, e3]
      rw [cS, cN, b1, Py.ok_bind]
      rfl
    obtain ⟨v, v1, v2⟩ := (C65_hybrid G c (by rw [cN]; exact one_pos) x).2.1 a hff
    refine ⟨v, v2, b4 v (List.mem_of_getElem? v1), ?_⟩
    have := congrFun (b5 0 one_pos) 0
    unfold inputsOf at this
    rw [List.getD_eq_getElem?_getD, v1] at this
    exact this.trans hu0

theorem oneMode_ok : PwaOk oneMode :=
  ⟨rfl, fun T hT => by
      simp only [oneMode, List.mem_cons, List.not_mem_nil, or_false] at hT
      subst hT
      exact ⟨rfl, rfl, rfl, rfl, rfl⟩, fun D hD => by
      simp only [oneMode, List.mem_cons, List.not_mem_nil, or_false] at hD
      subst hD
      exact ⟨⟨rfl, rfl, rfl, rfl⟩, by show 0 < 4; norm_num⟩⟩

theorem dz_noEq : (hyb oneMode 1 one1 one1 (weight 2) interval1).NoEq := by
  refine ⟨fun i hi => ?_, rfl⟩
  show (domAt oneMode i).C.nr = 0
  rw [oneMode_dom hi]
  rfl

theorem interval1_term (x : ℕ → ℝ) : IneqHold interval1.A interval1.b x ↔ -1 ≤ x 0 ∧ x 0 ≤ 1 := by
  constructor
  · intro h
    have h0 := h 0 (by show 0 < 2; norm_num)
    have h1 := h 1 (by show 1 < 2; norm_num)
    simp [interval1, Poly.fresh, rowVal] at h0 h1
    exact ⟨by linarith, h0⟩
  · rintro ⟨h0, h1⟩ i hi
    have hi : i < 2 := hi
    interval_cases i <;> simp [interval1, Poly.fresh, rowVal] <;> linarith

theorem dz_decrease : (hyb oneMode 1 one1 one1 (weight 2) interval1).TerminalDecrease := by
  rintro x ⟨hx, -⟩
  obtain ⟨h0, h1⟩ := (interval1_term x).1 hx
  have hn : (hyb oneMode 1 one1 one1 (weight 2) interval1).next 0 x (fun _ => - x 0) 0 = 0 := by
    simp [HybOcp.next, hyb, oneMode, Spec.affine]
  refine ⟨0, one_pos, fun _ => - x 0, ⟨?_, eqHold_of_noEq rfl _⟩, ⟨?_, eqHold_of_noEq rfl _⟩, ?_⟩
  · exact ((strip_mem (lo := -1) (hi := 1) _).2 (by simp [pair, hyb, oneMode]; exact ⟨h1, h0, by linarith, h1⟩)).1
  · exact (interval1_term _).2 (by rw [hn]; norm_num)
  · show 1 / 2 * quad (weight 2) _ + 1 / 2 * (quad one1 x + quad one1 _) ≤ 1 / 2 * quad (weight 2) x
    rw [weight_quad, weight_quad, one1_quad, one1_quad, hn]
    norm_num
    linarith

theorem oneMode_agree (x u : Vec ℝ) : ModesAgree oneMode x u := fun i hi j hj _ _ k _ => by
  have hi : i < 1 := hi
  have hj : j < 1 := hj
  obtain rfl : i = 0 := by omega
  obtain rfl : j = 0 := by omega
  rfl

/-- C101 is false: for `x⁺ = x + u` with `|x| ≤ 1`, `|u| ≤ 1`, unit weights and a decreasing terminal cost, the closed loop from `5e-10` stays there forever: the
dynamics that Gurobi sees in this state is `x⁺ = u`. -/
theorem C101_false : ∃ (S : PWA) (N : ℕ) (Q R P : Mat ℝ) (X_N : Poly) (x0 : Vec ℝ), HybArgs S N Q R P X_N ∧ Weights S.nx S.nu Q R P ∧ GoodDomains S ∧
    PwaOk S ∧ (hyb S N Q R P X_N).NoEq ∧ (hyb S N Q R P X_N).TerminalDecrease ∧ (∀ x, (∃ i < S.nx, x i ≠ 0) → 0 < quad Q x) ∧ x0.n = S.nx ∧
    (∀ x u, ModesAgree S x u) ∧ (∃ m u, (hyb S N Q R P X_N).Feas x0.e m u) ∧
    ∀ L G, LibSpec L → GurobiSpec G → ∃ c, HMPC.init L S N Q R P X_N = .ok c ∧ ∃ x u : ℕ → Vec ℝ, x 0 = x0 ∧ (∀ T, HybridLoop G c S x u T) ∧
      ∀ t, (x t).e 0 = 5e-10 := by
  refine ⟨oneMode, 1, one1, one1, weight 2, interval1, ⟨1, fun _ => 5e-10⟩, dz_args, weights12, oneMode_good, oneMode_ok, dz_noEq, dz_decrease, ?_, rfl,
    oneMode_agree, ⟨fun _ => 0, fun _ _ => 0, ?_⟩, fun L G hL hG => ?_⟩
  · rintro x ⟨i, hi, hx⟩
    have hi : i < 1 := hi
    obtain rfl : i = 0 := by omega
    rw [one1_quad]
    positivity
  · refine ⟨⟨fun t ht => one_pos, fun t ht => ?_, ?_⟩, fun t _ => eqHold_of_noEq rfl _, eqHold_of_noEq rfl _⟩
    · have ht : t < 1 := ht
      interval_cases t
      exact ((strip_mem (lo := -1) (hi := 1) _).2 (by norm_num [pair, hyb, oneMode, HybOcp.x, Spec.traj])).1
    · exact (interval1_term _).2 (by norm_num [HybOcp.x, Spec.traj, Spec.affine, hyb, oneMode])
  obtain ⟨c, hrun, -, -⟩ := C72 L hL oneMode 1 one1 one1 (weight 2) interval1 dz_args one_pos oneMode_good
  refine ⟨c, hrun, ?_⟩
  -- one step
  have hstep : ∀ x : Vec ℝ, x.n = 1 ∧ x.e 0 = 5e-10 → ∃ p : Vec ℝ × Vec ℝ, c.feedback G x = .ok (some p.1) ∧ (∃ m, oneMode.simulate x [p.1] = .ok ([x, p.2], [m])) ∧
      p.2.n = 1 ∧ p.2.e 0 = 5e-10 := by
    rintro x ⟨hx, hx0⟩
    obtain ⟨v, v1, v2, v3⟩ := dz_answer hL hG hrun hx hx0
    have e0 : (x.append v).e 0 = 5e-10 := by rw [Vec.append_e_lt _ _ (by omega), hx0]
    have e1 : (x.append v).e 1 = 0 := by
      have := Vec.append_e_add x v 0
      rw [hx] at this
      exact this.trans v3
    obtain ⟨y, m, hy⟩ := simulate_step oneMode_ok (x := x) (u := v) hx v2 (j := 0) one_pos rfl
      ((strip_mem (lo := -1) (hi := 1) _).2 (by rw [e0, e1]; norm_num)).1
    obtain ⟨h1, yn, ye⟩ := simulate_one oneMode_ok hx v2 hy
    refine ⟨(v, y), v1, ⟨m, hy⟩, yn, ?_⟩
    have hm : m < 1 := h1.lt oneMode_ok
    obtain rfl : m = 0 := by omega
    rw [ye 0 one_pos]
    simp [Spec.affine, oneMode, hx0, v3]
  choose! p hp1 hp2 hp3 hp4 using hstep
  let x : ℕ → Vec ℝ := fun t => Nat.rec ⟨1, fun _ => 5e-10⟩ (fun _ y => (p y).2) t
  have hinv : ∀ t, (x t).n = 1 ∧ (x t).e 0 = 5e-10 := by
    intro t
    induction t with
    | zero => exact ⟨rfl, rfl⟩
    | succ t ih => exact ⟨hp3 _ ih, hp4 _ ih⟩
  exact ⟨x, fun t => (p (x t)).1, rfl, fun T => ⟨rfl, fun t _ => ⟨hp1 _ (hinv t), hp2 _ (hinv t)⟩⟩, fun t => (hinv t).2⟩

end Verif.Props
