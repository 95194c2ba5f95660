import Verif.Props.McaisTest

/- How far the points are that redundancy removal adds, when the polyhedron has a point away from all its facets. -/
namespace Verif.Props
open Finset Spec Dyn

/-- the point on the way from `c` to `x`, at the fraction `1 / s` -/
noncomputable def toward (c x : ℕ → ℝ) (s : ℝ) : ℕ → ℝ := fun i => c i + (x i - c i) / s

theorem rowVal_toward (A : Mat ℝ) (i : ℕ) (c x : ℕ → ℝ) (s : ℝ) : rowVal A i (toward c x s) = rowVal A i c + (rowVal A i x - rowVal A i c) / s := by
  unfold rowVal toward
  rw [← Finset.sum_sub_distrib, Finset.sum_div, ← Finset.sum_add_distrib]
  exact Finset.sum_congr rfl fun j _ => by ring

/-- if the removed facets hold up to `tol` where the kept ones and the later ones hold, then shrinking by `(1 + tol/β)^k` is enough for all of them -/
theorem removed_bound {A : Mat ℝ} {b : Vec ℝ} {E : (ℕ → ℝ) → Prop} {r : List ℕ} {tol β : ℝ} (htol : 0 ≤ tol) (hβ : 0 < β) {c : ℕ → ℝ}
    (hE : ∀ x s, 1 ≤ s → E x → E (toward c x s)) (hc : ∀ i < A.nr, rowVal A i c + β ≤ b.e i) (hr : ∀ i ∈ r, i < A.nr)
    (h : ∀ i < A.nr, i ∉ r → ∀ x, E x → (∀ j ∈ r, rowVal A j x ≤ b.e j) → (∀ j < A.nr, i < j → rowVal A j x ≤ b.e j) → rowVal A i x < b.e i + tol)
    {x : ℕ → ℝ} (hx : E x) (hxr : ∀ j ∈ r, rowVal A j x ≤ b.e j) :
    ∀ m ≤ A.nr, ∀ i < A.nr, A.nr - m ≤ i → rowVal A i (toward c x ((1 + tol / β) ^ #{i ∈ range A.nr | A.nr - m ≤ i ∧ i ∉ r})) ≤ b.e i := by
  have hone : 1 ≤ 1 + tol / β := by
    have : 0 ≤ tol / β := div_nonneg htol hβ.le
    linarith
  have hmono : ∀ i < A.nr, ∀ s s', 1 ≤ s → s ≤ s' → rowVal A i (toward c x s) ≤ b.e i → rowVal A i (toward c x s') ≤ b.e i := by
    intro i hi s s' hs hss h1
    rw [rowVal_toward] at h1 ⊢
    have hc' := hc i hi
    rcases le_total 0 (rowVal A i x - rowVal A i c) with h0 | h0
    · have := div_le_div_of_nonneg_left h0 (by linarith) hss
      linarith
    · have := div_nonpos_of_nonpos_of_nonneg h0 (by linarith : (0 : ℝ) ≤ s')
      linarith
  intro m
  induction m with
  | zero => intro _ i hi h; omega
  | succ m ih =>
    intro hm i hi hle
    have ih := ih (by omega)
    set N := #{i ∈ range A.nr | A.nr - m ≤ i ∧ i ∉ r} with hN
    have hNle : N ≤ #{i ∈ range A.nr | A.nr - (m + 1) ≤ i ∧ i ∉ r} := Finset.card_le_card fun k hk => by
      simp only [Finset.mem_filter] at hk ⊢
      exact ⟨hk.1, by omega, hk.2.2⟩
    have hpow : (1 + tol / β) ^ N ≤ (1 + tol / β) ^ #{i ∈ range A.nr | A.nr - (m + 1) ≤ i ∧ i ∉ r} := pow_le_pow_right₀ hone hNle
    have h1N : 1 ≤ (1 + tol / β) ^ N := one_le_pow₀ hone
    rcases (show A.nr - m ≤ i ∨ i = A.nr - (m + 1) by omega) with h1 | h1
    · exact hmono i hi _ _ h1N hpow (ih i hi h1)
    · by_cases hir : i ∈ r
      · refine hmono i hi 1 _ le_rfl (h1N.trans hpow) ?_
        rw [rowVal_toward]
        simpa using hxr i hir
      · have hcard : N + 1 ≤ #{i ∈ range A.nr | A.nr - (m + 1) ≤ i ∧ i ∉ r} := by
          rw [hN, ← Finset.card_insert_of_notMem (a := i) (by simp only [Finset.mem_filter]; omega)]
          refine Finset.card_le_card fun k hk => ?_
          simp only [Finset.mem_insert, Finset.mem_filter, mem_range] at hk ⊢
          rcases hk with rfl | hk
          · exact ⟨hi, by omega, hir⟩
          · exact ⟨hk.1, by omega, hk.2.2⟩
        refine hmono i hi ((1 + tol / β) ^ (N + 1)) _ (one_le_pow₀ hone) (pow_le_pow_right₀ hone hcard) ?_
        have key := h i hi hir (toward c x ((1 + tol / β) ^ N)) (hE x _ h1N hx)
          (fun j hj => hmono j (hr j hj) 1 _ le_rfl h1N (by rw [rowVal_toward]; simpa using hxr j hj)) (fun j hj hij => ih j hj (by omega))
        rw [rowVal_toward] at key ⊢
        have hci := hc i hi
        rw [pow_succ, ← div_div]
        set v := (rowVal A i x - rowVal A i c) / (1 + tol / β) ^ N
        have hv : v ≤ (b.e i - rowVal A i c) * (1 + tol / β) := by
          have h2 : tol ≤ (b.e i - rowVal A i c) * (tol / β) := by
            calc tol = β * (tol / β) := by field_simp
              _ ≤ (b.e i - rowVal A i c) * (tol / β) := mul_le_mul_of_nonneg_right (by linarith) (div_nonneg htol hβ.le)
          linarith
        have := (div_le_iff₀ (by linarith : (0 : ℝ) < 1 + tol / β)).2 hv
        linarith

theorem removed_count {N : ℕ} {r : List ℕ} (h : r.Sublist (List.range N)) : #{i ∈ range N | N - N ≤ i ∧ i ∉ r} = N - r.length := by
  have hnd : r.Nodup := h.nodup List.nodup_range
  have e : ({i ∈ range N | N - N ≤ i ∧ i ∉ r} : Finset ℕ) = range N \ r.toFinset := by
    ext i
    simp
  have hsub : r.toFinset ⊆ range N := fun i hi => by
    have := h.subset (List.mem_toFinset.1 hi)
    simpa using this
  rw [e, Finset.card_sdiff_of_subset hsub, Finset.card_range, List.toFinset_card_of_nodup hnd]

/-- C188: let `c` be a point of the polyhedron at which all inequalities hold with a margin `β > 0`.  `remove_redundant_inequalities` adds no point far away: if
`x` is in the result and `k` inequalities were removed, the point on the way from `c` to `x` at the fraction `1 / (1 + 1e-7/β)^k` is in the
polyhedron. -/
theorem C188 (L : Lib) (hL : LibSpec L) (n : ℕ) (p : Poly) (hp : p.Inv n) (hrows : p.HasRows) (hce : p.EmptyOk L)
    (hne : Spec.NearPoint n p.A p.b p.C p.d) (heq : p.C.nr = 0 ∨ Spec.EqIndep n p.C)
    (c : ℕ → ℝ) (β : ℝ) (hβ : 0 < β) (hc : EqHold p.C p.d c ∧ ∀ i < p.A.nr, rowVal p.A i c + β ≤ p.b.e i) :
    ∃ q, Poly.remove_redundant_inequalities L p = (.ok (), q) ∧ q.A.nr ≤ p.A.nr ∧ (∀ x, p.Mem x → q.Mem x) ∧
      ∀ x, q.Mem x → p.Mem (toward c x ((1 + 1e-7 / β) ^ (p.A.nr - q.A.nr))) := by
  obtain ⟨r, -, h2, h3, h4, h5, h6⟩ := redundancy_run hL hp hrows hce hne heq (tol := 1e-7) (by norm_num)
  refine ⟨_, h2 rfl, ?_, fun x hx => (mem_rows p r x _).2 ⟨hx.2, fun j hj => hx.1 j (h4 j hj)⟩, fun x hx => ?_⟩
  · show r.length ≤ _
    have := h3.length_le
    rwa [List.length_range] at this
  · obtain ⟨k1, k2⟩ := (mem_rows p r x _).1 hx
    have hE : ∀ x s, 1 ≤ s → EqHold p.C p.d x → EqHold p.C p.d (toward c x s) := fun x s _ hx i hi => by
      rw [rowVal_toward, hx i hi, hc.1 i hi]
      simp
    have := removed_bound (E := EqHold p.C p.d) (tol := 1e-7) (by norm_num) hβ hE hc.2 h4 h6 k1 k2 p.A.nr le_rfl
    rw [removed_count h3] at this
    exact ⟨fun i hi => this i hi (by omega), hE x _ (one_le_pow₀ (by have : 0 < 1e-7 / β := div_pos (by norm_num) hβ
                                                                     linarith)) k1⟩

/-- C189: let the inequalities of `X` hold at the origin with a margin `β > 0`.  The set that `mcais` returns contains the maximal one, and is inside the maximal one
scaled by `s = (1 + 1e-7/β)^k`, where `k` is the number of the facets that were removed; so it is invariant up to the factor `s`, and is inside `s X`. -/
theorem C189 (L : Lib) (hL : LibSpec L) (n : ℕ) (A : Mat ℝ) (X O : Poly) (hd : McaisData L n A X) (β : ℝ) (hβ : 0 < β) (hX : ∀ i < X.A.nr, β ≤ X.b.e i)
    (fuel : ℕ) (hO : mcais L A X fuel = .ok (some O)) :
    ∃ Ob s, mcaisBefore L A X fuel = .ok (some Ob) ∧ O.A.nr ≤ Ob.A.nr ∧ s = (1 + 1e-7 / β) ^ (Ob.A.nr - O.A.nr) ∧
      (∀ x, StaysIn X A x → O.Mem x) ∧ (∀ x, O.Mem x → StaysIn X A fun i => x i / s) ∧ ∀ x, O.Mem x → (X.Mem fun i => x i / s) ∧ O.Mem fun i => image A x i / s := by
  unfold mcais at hO
  obtain ⟨B, hB, h⟩ := Py.bind_eq_ok hO
  cases B with
  | none => cases h
  | some Ob =>
    obtain ⟨q, hq, h⟩ := Py.bind_eq_ok h
    cases h
    have hB' := hB
    unfold mcaisBefore at hB
    obtain ⟨X', hX', hB⟩ := Py.bind_eq_ok hB
    have hs := checks_state hL hd hX'
    rcases before_ok hL hd hX' fuel with ⟨k, -⟩ | ⟨O2, t, k1, k2, k3, k4, k5, k6, k7, k8⟩
    · rw [hB'] at k
      cases k
    · rw [hB'] at k1
      cases k1
      obtain ⟨l1, l2, l3, l4⟩ := loop_rows (L := L) hd.nr hd.nc hd.inv.1 hd.inv.2.1 fuel X' Ob 1 (by unfold Poly.Inv; rw [hs.1, hs.2.1, hs.2.2.1, hs.2.2.2.1]; exact hd.inv) hB
      rw [hs.1] at l2 l3 l4
      rw [hs.2.1] at l3
      have hz : ∀ t, orbit A (fun _ => 0) t = fun _ => 0 := by
        intro t
        induction t with
        | zero => rfl
        | succ t ih => funext i; rw [orbit, ih]; simp
      have h0 : Ob.Mem fun _ => 0 := (k8 _).2 fun t => by rw [hz]; exact hd.origin
      have hbe : ∀ i < Ob.A.nr, β ≤ Ob.b.e i := fun i hi => by
        by_cases hlt : i < X.A.nr
        · rw [(l3 i hlt).2]
          exact hX i hlt
        · obtain ⟨k, s, q1, -, -, q4⟩ := l4 i hi (by omega)
          rw [q4]
          exact hX k q1
      obtain ⟨q', r1, r2, r3, r4⟩ := C188 L hL n Ob k2 (Poly.hasRows_of_bounded hd.pos ⟨hd.bounded.choose, fun x hx => hd.bounded.choose_spec x ((k8 x).1 hx 0)⟩) k4 (near_zero h0) (.inl k3)
        (fun _ => 0) β hβ ⟨h0.2, fun i hi => by
          have : rowVal Ob.A i (fun _ => 0) = 0 := by simp [rowVal]
          rw [this, zero_add]
          exact hbe i hi⟩
      rw [runOn_ok, r1] at hq
      have hq' := (Prod.mk.inj hq).2
      subst hq'
      have hst : ∀ x, q'.Mem x → StaysIn X A fun i => x i / (1 + 1e-7 / β) ^ (Ob.A.nr - q'.A.nr) := fun x hx => by
        have := (k8 _).1 (r4 x hx)
        have e : toward (fun _ => 0) x ((1 + 1e-7 / β) ^ (Ob.A.nr - q'.A.nr)) = fun i => x i / (1 + 1e-7 / β) ^ (Ob.A.nr - q'.A.nr) := by
          funext i
          simp [toward]
        rwa [e] at this
      refine ⟨Ob, _, hB', r2, rfl, fun x hx => r3 x ((k8 x).2 hx), hst, fun x hx => ⟨hst x hx 0, r3 _ ((k8 _).2 fun t => ?_)⟩⟩
      have := hst x hx (t + 1)
      rw [← orbit_image] at this
      have e : image A (fun i => x i / (1 + 1e-7 / β) ^ (Ob.A.nr - q'.A.nr)) = fun i => image A x i / (1 + 1e-7 / β) ^ (Ob.A.nr - q'.A.nr) := by
        funext i
        unfold image
        rw [Finset.sum_div]
        exact Finset.sum_congr rfl fun j _ => mul_div_assoc' _ _ _
      rw [e] at this
      exact this

/-- a square and a point with margin 1 -/
example : (EqHold square.C square.d fun _ => 0) ∧ (∀ i < square.A.nr, rowVal square.A i (fun _ => 0) + 1 ≤ square.b.e i) ∧ square.Inv 2 ∧ square.HasRows := by
  refine ⟨fun i hi => ?_, fun i _ => ?_, ⟨rfl, rfl, rfl, rfl⟩, .inl (by show 0 < 4; norm_num)⟩
  · exact absurd hi (by simp [square, Poly.fresh, Mat.zeros])
  · simp [rowVal, square, Poly.fresh]

/-- a run of `mcais` that meets the hypotheses of `C189` -/
example : ∃ L, LibSpec L ∧ ∃ fuel O, McaisData L 2 cornerA square ∧ (∀ i < square.A.nr, 1 ≤ square.b.e i) ∧ mcais L cornerA square fuel = .ok (some O) := by
  obtain ⟨L, hL⟩ := exists_lib
  obtain ⟨T, O, hO⟩ := C56 L hL 2 cornerA square (square_data L rfl rfl) two_pos (.inl rfl) ⟨1, one_pos, fun x hx => (square_mem x).2 ⟨hx 0 (by norm_num), hx 1 (by norm_num)⟩⟩ (stable_of_eig rfl corner_eig)
  exact ⟨L, hL, T, O, square_data L rfl rfl, fun i _ => by simp [square, Poly.fresh], hO T le_rfl⟩

end Verif.Props
