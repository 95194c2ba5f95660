import Verif.Proofs.ExampleBuild

/- The points of the mixed-integer program of the drake example are the trajectories. -/
namespace Verif
namespace Example
open Finset Spec Dyn Control

/-- over the inequalities of the domain `j` the greatest value of `g`, if there is one, is not strictly between `0` and `1e-6` -/
def NotCut (S : PWA) (j : ℕ) (g : (ℕ → ℝ) → ℝ) : Prop :=
  ∀ M, IsGreatest {v | ∃ w, IneqHold (domAt S j).A (domAt S j).b w ∧ v = g w} M → M ≤ 0 ∨ 1e-6 ≤ M

/-- the next state of the mode `i` at `(x, u)` -/
noncomputable def nextOf (S : PWA) (i : ℕ) (w : ℕ → ℝ) : ℕ → ℝ :=
  Spec.affine (sysAt S i).A (sysAt S i).B (sysAt S i).c w (fun j => w (S.nx + j))

/-- no pair of modes `i`, `j` has a greatest violation of the inequalities or of the dynamics of `i` over the domain `j` that `big_m` rounds down -/
structure NoCut (S : PWA) : Prop where
  dom : ∀ i < S.nm, ∀ j < S.nm, i ≠ j → ∀ k < (domAt S i).A.nr, NotCut S j fun w => rowVal (domAt S i).A k w - (domAt S i).b.e k
  up : ∀ i < S.nm, ∀ j < S.nm, i ≠ j → ∀ k < S.nx, NotCut S j fun w => nextOf S i w k - nextOf S j w k
  down : ∀ i < S.nm, ∀ j < S.nm, i ≠ j → ∀ k < S.nx, NotCut S j fun w => nextOf S j w k - nextOf S i w k

theorem nextOf_congr {S : PWA} (h : PwaShape S) {i : ℕ} (hi : i < S.nm) {w w' : ℕ → ℝ} (hw : ∀ k < S.nx + S.nu, w k = w' k) (k : ℕ) :
    nextOf S i w k = nextOf S i w' k := by
  obtain ⟨⟨a1, a2, a3, a4, a5⟩, -, -⟩ := h.sys _ (getD_mem sys0 (show i < S.affine_systems.length by rw [h.lenS]; exact hi))
  refine affine_congr' k (fun j hj => hw j ?_) (fun j hj => hw _ ?_)
  · rw [show (sysAt S i).A.nc = S.nx from a2] at hj
    omega
  · rw [show (sysAt S i).B.nc = S.nu from a4] at hj
    omega

/-- greatest values over the graph are greatest values over the domain -/
theorem greatest_graph {S : PWA} (h : PwaShape S) {j : ℕ} (hj : j < S.nm) {f g : (ℕ → ℝ) → ℝ} (hfg : ∀ w, InGraph S j w → f w = g w)
    (hg : ∀ w w' : ℕ → ℝ, (∀ k < S.nx + S.nu, w k = w' k) → g w = g w') {M : ℝ} (hM : IsGreatest {v | ∃ w, InGraph S j w ∧ v = f w} M) :
    IsGreatest {v | ∃ w, IneqHold (domAt S j).A (domAt S j).b w ∧ v = g w} M := by
  have : {v | ∃ w, IneqHold (domAt S j).A (domAt S j).b w ∧ v = g w} = {v | ∃ w, InGraph S j w ∧ v = f w} := by
    ext v
    constructor
    · rintro ⟨w, hw, rfl⟩
      have hp := graph_point h hj w hw
      refine ⟨_, hp, ?_⟩
      rw [hfg _ hp]
      exact hg _ _ fun k hk => (if_pos hk).symm
    · rintro ⟨w, hw, rfl⟩
      exact ⟨w, hw.1, hfg w hw⟩
  rwa [this]

/-- the constants are large enough -/
theorem ex_large {S : PWA} (h : PwaShape S) (hc : NoCut S) {Gs : List Poly} {m : List (List (Vec ℝ))} (hGi : ∀ i < S.nm, IsGraph S i (Gs.getD i poly0))
    (hm : IsM S Gs m) {i j : ℕ} (hi : i < S.nm) (hj : j < S.nm) (hij : i ≠ j) {k : ℕ} (hk : k < (Gs.getD i poly0).A.nr) {w : ℕ → ℝ} (hw : InGraph S j w) :
    rowVal (Gs.getD i poly0).A k w - (Gs.getD i poly0).b.e k ≤ ex m i j k := by
  obtain ⟨M, hM, e⟩ := hm.val i hi j hj k hk
  have hle : rowVal (Gs.getD i poly0).A k w - (Gs.getD i poly0).b.e k ≤ M := hM.2 ⟨w, hw, rfl⟩
  have hcut : M ≤ 0 ∨ 1e-6 ≤ M := by
    have hG := hGi i hi
    have hD := (h.dom _ (getD_mem poly0 (show i < S.domains.length by rw [h.lenD]; exact hi))).1
    have hk' := hk
    rw [hG.nr] at hk'
    rcases Nat.lt_or_ge k (domAt S i).A.nr with h1 | h1
    · refine hc.dom i hi j hj hij k h1 M (greatest_graph h hj (fun w _ => hG.dom k h1 w) (fun w w' hw => ?_) hM)
      rw [rowVal_congr' k fun j hj => hw j (hD ▸ hj)]
    · obtain ⟨k1, rfl⟩ := Nat.exists_eq_add_of_le h1
      rcases Nat.lt_or_ge k1 S.nx with h2 | h2
      · refine hc.up i hi j hj hij k1 h2 M (greatest_graph h hj (fun w hw => ?_) (fun w w' hw => ?_) hM)
        · rw [hG.up k1 h2 w, hw.2 k1 h2]
          rfl
        · simp only [nextOf_congr h hi hw, nextOf_congr h hj hw]
      · obtain ⟨k2, rfl⟩ := Nat.exists_eq_add_of_le h2
        have h3 : k2 < S.nx := by omega
        refine hc.down i hi j hj hij k2 h3 M (greatest_graph h hj (fun w hw => ?_) (fun w w' hw => ?_) hM)
        · rw [hG.down k2 h3 w, hw.2 k2 h3]
          rfl
        · simp only [nextOf_congr h hi hw, nextOf_congr h hj hw]
  rw [e]
  split_ifs with ha
  · rcases hcut with h0 | h0
    · linarith
    · have := lt_of_le_of_lt (le_abs_self M) ha
      linarith
  · exact hle

/-- one stage: the point is in the graph of the selected mode -/
theorem stage_sound {S : PWA} {Gs : List Poly} {m : List (List (Vec ℝ))} (hGi : ∀ i < S.nm, IsGraph S i (Gs.getD i poly0)) {t : ℕ} {v : ℕ → ℝ}
    (hB : StageB S t v) (hR : StageR S Gs m t v) : ∃ i < S.nm, (∀ j < S.nm, v ((di S.nx S.nu S.nm t).e j) = if j = i then 1 else 0) ∧
      InGraph S i (fun j => v ((wi S.nx S.nu S.nm t).e j)) := by
  obtain ⟨i, hi, hd⟩ := binary_one (d := fun j => v ((di S.nx S.nu S.nm t).e j)) hB hR.2
  refine ⟨i, hi, hd, ((hGi i hi).mem _).1 fun k hk => ?_⟩
  have := hR.1 i hi k hk
  unfold RowHolds at this
  rwa [sum_erase_delta hi (fun j => ex m i j k) (fun j => v ((di S.nx S.nu S.nm t).e j)) hd, if_pos rfl, add_zero] at this

/-- one stage: points in the graph of the selected mode satisfy the constraints -/
theorem stage_complete {S : PWA} (h : PwaShape S) (hc : NoCut S) {Gs : List Poly} {m : List (List (Vec ℝ))}
    (hGi : ∀ i < S.nm, IsGraph S i (Gs.getD i poly0)) (hm : IsM S Gs m) {t i : ℕ} (hi : i < S.nm) {v : ℕ → ℝ}
    (hd : ∀ j < S.nm, v ((di S.nx S.nu S.nm t).e j) = if j = i then 1 else 0) (hw : InGraph S i (fun j => v ((wi S.nx S.nu S.nm t).e j))) :
    StageB S t v ∧ StageR S Gs m t v := by
  refine ⟨fun j hj => ?_, fun i' hi' k hk => ?_, ?_⟩
  · rw [hd j hj]
    split_ifs
    · exact Or.inr rfl
    · exact Or.inl rfl
  · unfold RowHolds
    rw [sum_erase_delta hi (fun j => ex m i' j k) (fun j => v ((di S.nx S.nu S.nm t).e j)) hd]
    split_ifs with he
    · subst he
      rw [add_zero]
      exact ((hGi i' hi').mem _).2 hw k hk
    · have := ex_large h hc hGi hm hi' hi he hk hw
      linarith
  · rw [Finset.sum_congr rfl fun j hj => hd j (mem_range.1 hj), Finset.sum_ite_eq', if_pos (mem_range.2 hi)]

/-! ### trajectories -/

/-- the values of `(x, u, x⁺)` -/
theorem wi_val (S : PWA) (t : ℕ) (v : ℕ → ℝ) : (∀ k < S.nx, v ((wi S.nx S.nu S.nm t).e k) = v ((xi S.nx S.nu S.nm t).e k)) ∧
    (∀ k < S.nu, v ((wi S.nx S.nu S.nm t).e (S.nx + k)) = v ((ui S.nx S.nu S.nm t).e k)) ∧
    ∀ k, v ((wi S.nx S.nu S.nm t).e (S.nx + S.nu + k)) = v ((xi S.nx S.nu S.nm (t + 1)).e k) := by
  refine ⟨fun k hk => ?_, fun k hk => ?_, fun k => ?_⟩
  · unfold wi
    rw [Vec.append_e_lt _ _ (by rw [xi_n]; exact hk)]
  · unfold wi
    have := Vec.append_e_add (xi S.nx S.nu S.nm t) ((ui S.nx S.nu S.nm t).append (xi S.nx S.nu S.nm (t + 1))) k
    rw [xi_n] at this
    rw [this, Vec.append_e_lt _ _ hk]
  · unfold wi
    have := Vec.append_e_add (xi S.nx S.nu S.nm t) ((ui S.nx S.nu S.nm t).append (xi S.nx S.nu S.nm (t + 1))) (S.nu + k)
    rw [xi_n, ← Nat.add_assoc] at this
    rw [this]
    exact congrArg v (Vec.append_e_add (ui S.nx S.nu S.nm t) (xi S.nx S.nu S.nm (t + 1)) k)

/-- being in the graph of a mode in terms of `x`, `u`, `x⁺` -/
theorem inGraph_iff {S : PWA} (h : PwaShape S) {i : ℕ} (hi : i < S.nm) {w x u y : ℕ → ℝ} (hx : ∀ k < S.nx, w k = x k) (hu : ∀ k < S.nu, w (S.nx + k) = u k)
    (hy : ∀ k < S.nx, w (S.nx + S.nu + k) = y k) : InGraph S i w ↔ IneqHold (domAt S i).A (domAt S i).b (pair S.nx x u) ∧
      ∀ k < S.nx, y k = Spec.affine (sysAt S i).A (sysAt S i).B (sysAt S i).c x u k := by
  obtain ⟨⟨a1, a2, a3, a4, a5⟩, -, -⟩ := h.sys _ (getD_mem sys0 (show i < S.affine_systems.length by rw [h.lenS]; exact hi))
  have hD := (h.dom _ (getD_mem poly0 (show i < S.domains.length by rw [h.lenD]; exact hi))).1
  have hp : ∀ k < S.nx + S.nu, w k = pair S.nx x u k := by
    refine forall_lt_add.2 ⟨fun k hk => ?_, fun k hk => ?_⟩
    · unfold pair
      rw [if_pos hk, hx k hk]
    · unfold pair
      rw [if_neg (by omega), hu k hk, Nat.add_sub_cancel_left]
  unfold InGraph IneqHold
  refine and_congr (forall_congr' fun k => forall_congr' fun _ => ?_) (forall_congr' fun k => forall_congr' fun hk => ?_)
  · rw [rowVal_congr' k fun j hj => hp j (hD ▸ hj)]
  · rw [hy k hk, affine_congr' (A := (sysAt S i).A) (B := (sysAt S i).B) k (fun j hj => hx j (a2 ▸ hj)) (fun j hj => hu j (a4 ▸ hj))]

/-- the objective is the cost of the trajectory -/
theorem cost_traj {S : PWA} {N : ℕ} {Q R P : Mat ℝ} {X_N : Poly} (h : HybArgs S N Q R P X_N) {v x0 : ℕ → ℝ} {m : ℕ → ℕ} {u : ℕ → ℕ → ℝ}
    (hu : ∀ t < N, ∀ k < S.nu, v ((ui S.nx S.nu S.nm t).e k) = u t k)
    (hx : ∀ t ≤ N, ∀ k < S.nx, v ((xi S.nx S.nu S.nm t).e k) = (hyb S N Q R P X_N).x x0 m u t k) :
    ∑ t ∈ range N, StageC S Q R t v + 1 / 2 * Spec.quad P (fun i => v ((xi S.nx S.nu S.nm N).e i)) = (hyb S N Q R P X_N).cost x0 m u := by
  unfold HybOcp.cost lqCost
  rw [Finset.mul_sum]
  congr 1
  · refine Finset.sum_congr rfl fun t ht => ?_
    have ht := mem_range.1 ht
    unfold StageC
    rw [quad_congr h.Q.1 h.Q.2.1 (hx t ht.le), quad_congr h.R.1 h.R.2 (hu t ht)]
    rfl
  · rw [quad_congr h.P.1 h.P.2.1 (hx N le_rfl)]
    rfl

/-- a point of the program is a trajectory -/
theorem prog_sound {S : PWA} {N : ℕ} {Q R P : Mat ℝ} {X_N : Poly} (h : HybArgs S N Q R P X_N) {Gs : List Poly} {m : List (List (Vec ℝ))}
    (hGi : ∀ i < S.nm, IsGraph S i (Gs.getD i poly0)) {x0 v : ℕ → ℝ} (h0 : ∀ k < S.nx, v k = x0 k) (hB : ∀ t < N, StageB S t v)
    (hR : ∀ t < N, StageR S Gs m t v) (hT : TermR S N X_N v) : ∃ μ : ℕ → ℕ,
      (∀ t < N, ∀ j < S.nm, v ((di S.nx S.nu S.nm t).e j) = if j = μ t then 1 else 0) ∧
      (hyb S N Q R P X_N).IneqFeas x0 μ (fun t k => v ((ui S.nx S.nu S.nm t).e k)) ∧
      ∀ t ≤ N, ∀ k < S.nx, v ((xi S.nx S.nu S.nm t).e k) = (hyb S N Q R P X_N).x x0 μ (fun t k => v ((ui S.nx S.nu S.nm t).e k)) t k := by
  choose! μ h1 h2 h3 using fun t ht => stage_sound hGi (hB t ht) (hR t ht)
  set u : ℕ → ℕ → ℝ := fun t k => v ((ui S.nx S.nu S.nm t).e k) with hu
  have hg : ∀ t < N, IneqHold (domAt S (μ t)).A (domAt S (μ t)).b (pair S.nx (fun k => v ((xi S.nx S.nu S.nm t).e k)) (u t)) ∧
      ∀ k < S.nx, v ((xi S.nx S.nu S.nm (t + 1)).e k) = Spec.affine (sysAt S (μ t)).A (sysAt S (μ t)).B (sysAt S (μ t)).c
        (fun k => v ((xi S.nx S.nu S.nm t).e k)) (u t) k := fun t ht => by
    obtain ⟨w1, w2, w3⟩ := wi_val S t v
    exact (inGraph_iff h.pwa (h1 t ht) w1 w2 fun k _ => w3 k).1 (h3 t ht)
  have hx : ∀ t ≤ N, ∀ k < S.nx, v ((xi S.nx S.nu S.nm t).e k) = (hyb S N Q R P X_N).x x0 μ u t k := by
    intro t
    induction t with
    | zero => exact fun _ k hk => h0 k hk
    | succ t ih =>
      intro ht k hk
      obtain ⟨⟨a1, a2, a3, a4, a5⟩, -, -⟩ := h.pwa.sys _ (getD_mem sys0 (show μ t < S.affine_systems.length by rw [h.pwa.lenS]; exact h1 t ht))
      rw [(hg t ht).2 k hk, affine_congr' (A := (sysAt S (μ t)).A) (B := (sysAt S (μ t)).B) k (fun j hj => ih (by omega) j (a2 ▸ hj)) (fun j hj => rfl)]
      rfl
  refine ⟨μ, h2, ⟨h1, fun t ht => ?_, ?_⟩, hx⟩
  · have hD := (h.pwa.dom _ (getD_mem poly0 (show μ t < S.domains.length by rw [h.pwa.lenD]; exact h1 t ht))).1
    intro k hk
    have := (hg t ht).1 k hk
    rwa [rowVal_congr' k fun j hj => show pair S.nx _ (u t) j = pair S.nx ((hyb S N Q R P X_N).x x0 μ u t) (u t) j from ?_] at this
    unfold pair
    split_ifs with hj'
    · exact hx t ht.le j hj'
    · rfl
  · intro k hk
    have := hT k hk
    rwa [rowVal_congr' k fun j hj => hx N le_rfl j (h.XN.1 ▸ hj)] at this

/-- the point of the program for a trajectory -/
def pointOf (nx nu nm : ℕ) (x : ℕ → ℕ → ℝ) (u : ℕ → ℕ → ℝ) (μ : ℕ → ℕ) (j : ℕ) : ℝ :=
  if j < nx then x 0 j
  else if (j - nx) % (nu + nm + nx) < nu then u ((j - nx) / (nu + nm + nx)) ((j - nx) % (nu + nm + nx))
  else if (j - nx) % (nu + nm + nx) < nu + nm then (if (j - nx) % (nu + nm + nx) - nu = μ ((j - nx) / (nu + nm + nx)) then 1 else 0)
  else x ((j - nx) / (nu + nm + nx) + 1) ((j - nx) % (nu + nm + nx) - nu - nm)

theorem decode {nx w t r : ℕ} (hr : r < w) : ¬ nx + t * w + r < nx ∧ (nx + t * w + r - nx) % w = r ∧ (nx + t * w + r - nx) / w = t := by
  have e : nx + t * w + r - nx = r + t * w := by omega
  refine ⟨by omega, ?_, ?_⟩
  · rw [e, Nat.add_mul_mod_self_right, Nat.mod_eq_of_lt hr]
  · rw [e, Nat.add_mul_div_right _ _ (by omega), Nat.div_eq_of_lt hr, Nat.zero_add]

theorem pointOf_u {nx nu nm : ℕ} (x u : ℕ → ℕ → ℝ) (μ : ℕ → ℕ) (t k : ℕ) (hk : k < nu) : pointOf nx nu nm x u μ ((ui nx nu nm t).e k) = u t k := by
  obtain ⟨d1, d2, d3⟩ := decode (nx := nx) (t := t) (show k < nu + nm + nx by omega)
  show pointOf nx nu nm x u μ (nx + t * (nu + nm + nx) + k) = _
  unfold pointOf
  rw [if_neg d1, d2, d3, if_pos hk]

theorem pointOf_d {nx nu nm : ℕ} (x u : ℕ → ℕ → ℝ) (μ : ℕ → ℕ) (t j : ℕ) (hj : j < nm) :
    pointOf nx nu nm x u μ ((di nx nu nm t).e j) = if j = μ t then 1 else 0 := by
  obtain ⟨d1, d2, d3⟩ := decode (nx := nx) (t := t) (show nu + j < nu + nm + nx by omega)
  show pointOf nx nu nm x u μ (nx + t * (nu + nm + nx) + nu + j) = _
  rw [Nat.add_assoc]
  unfold pointOf
  rw [if_neg d1, d2, d3, if_neg (by omega), if_pos (by omega), Nat.add_sub_cancel_left]

theorem pointOf_x {nx nu nm : ℕ} (x u : ℕ → ℕ → ℝ) (μ : ℕ → ℕ) (t k : ℕ) (hk : k < nx) : pointOf nx nu nm x u μ ((xi nx nu nm t).e k) = x t k := by
  cases t with
  | zero =>
    show pointOf nx nu nm x u μ k = _
    unfold pointOf
    rw [if_pos hk]
  | succ t =>
    obtain ⟨d1, d2, d3⟩ := decode (nx := nx) (t := t) (show nu + nm + k < nu + nm + nx by omega)
    show pointOf nx nu nm x u μ (nx + t * (nu + nm + nx) + nu + nm + k) = _
    rw [show nx + t * (nu + nm + nx) + nu + nm + k = nx + t * (nu + nm + nx) + (nu + nm + k) by ring]
    unfold pointOf
    rw [if_neg d1, d2, d3, if_neg (by omega), if_neg (by omega), show nu + nm + k - nu - nm = k by omega]

/-- a trajectory is a point of the program -/
theorem prog_complete {S : PWA} {N : ℕ} {Q R P : Mat ℝ} {X_N : Poly} (h : HybArgs S N Q R P X_N) (hc : NoCut S) {Gs : List Poly} {m : List (List (Vec ℝ))}
    (hGi : ∀ i < S.nm, IsGraph S i (Gs.getD i poly0)) (hm : IsM S Gs m) {x0 : ℕ → ℝ} {μ : ℕ → ℕ} {u : ℕ → ℕ → ℝ}
    (hf : (hyb S N Q R P X_N).IneqFeas x0 μ u) : ∃ v : ℕ → ℝ, (∀ k < S.nx, v k = x0 k) ∧ (∀ t < N, StageB S t v) ∧ (∀ t < N, StageR S Gs m t v) ∧
      TermR S N X_N v ∧ (∀ t < N, ∀ k < S.nu, v ((ui S.nx S.nu S.nm t).e k) = u t k) ∧
      ∀ t ≤ N, ∀ k < S.nx, v ((xi S.nx S.nu S.nm t).e k) = (hyb S N Q R P X_N).x x0 μ u t k := by
  obtain ⟨f1, f2, f3⟩ := hf
  set x := (hyb S N Q R P X_N).x x0 μ u with hx
  have hs : ∀ t < N, StageB S t (pointOf S.nx S.nu S.nm x u μ) ∧ StageR S Gs m t (pointOf S.nx S.nu S.nm x u μ) := fun t ht => by
    refine stage_complete h.pwa hc hGi hm (f1 t ht) (fun j hj => pointOf_d x u μ t j hj) ?_
    obtain ⟨w1, w2, w3⟩ := wi_val S t (pointOf S.nx S.nu S.nm x u μ)
    refine (inGraph_iff h.pwa (f1 t ht) (x := x t) (u := u t) (y := x (t + 1)) (fun k hk => ?_) (fun k hk => ?_) (fun k hk => ?_)).2 ⟨f2 t ht, fun k hk => rfl⟩
    · rw [w1 k hk, pointOf_x _ _ _ _ _ hk]
    · rw [w2 k hk, pointOf_u _ _ _ _ _ hk]
    · rw [w3 k, pointOf_x _ _ _ _ _ hk]
  refine ⟨pointOf S.nx S.nu S.nm x u μ, fun k hk => pointOf_x x u μ 0 k hk, fun t ht => (hs t ht).1, fun t ht => (hs t ht).2, fun k hk => ?_,
    fun t _ k hk => pointOf_u x u μ t k hk, fun t _ k hk => pointOf_x x u μ t k hk⟩
  rw [rowVal_congr' k fun j hj => pointOf_x x u μ N j (h.XN.1 ▸ hj)]
  exact f3 k hk

/-! ### running the controller -/

theorem inits_congr {nx : ℕ} {a b : ℕ → ℝ} (h : ∀ j < nx, a j = b j) : inits nx a = inits nx b :=
  List.map_congr_left fun j hj => by rw [h j (List.mem_range.1 hj)]

theorem modify_inits {nx k : ℕ} (hk : k < nx) (a : ℕ → ℝ) (b : ℝ) (rest : List LinCon) :
    (inits nx a ++ rest).modify k (fun c => { c with lb := some b, ub := some b }) = inits nx (fun j => if j = k then b else a j) ++ rest := by
  apply List.ext_getElem
  · simp [inits]
  · intro j h1 h2
    rw [List.getElem_modify]
    by_cases hj : j < nx
    · rw [List.getElem_append_left (by simp [inits]; exact hj), List.getElem_append_left (by simp [inits]; exact hj)]
      simp only [inits, List.getElem_map, List.getElem_range]
      by_cases e : k = j
      · simp [e]
      · have e' : ¬ j = k := fun h => e h.symm
        simp [e, e']
    · rw [List.getElem_append_right (by simp [inits]; omega), List.getElem_append_right (by simp [inits]; omega), if_neg (by omega)]
      simp [inits]

/-- `set_initial_condition` from position `k` on -/
theorem setFrom_spec (x0 : Vec ℝ) (nx : ℕ) (rest : List LinCon) : ∀ (n k : ℕ), k + n = nx → ∀ (a : ℕ → ℝ) (c : Ctrl), c.prog.cons = inits nx a ++ rest →
    setFrom x0 k (List.range' k n) c = (if x0.n < nx ∧ n ≠ 0 then .error .runtimeError else .ok (),
      { c with prog := { c.prog with cons := inits nx (fun j => if k ≤ j ∧ j < x0.n then x0.e j else a j) ++ rest } }) := by
  intro n
  induction n with
  | zero =>
    intro k hk a c hc
    have e : inits nx (fun j => if k ≤ j ∧ j < x0.n then x0.e j else a j) = inits nx a :=
      inits_congr fun j hj => if_neg (by omega)
    rw [e, if_neg (by simp), ← hc]
    rfl
  | succ n ih =>
    intro k hk a c hc
    rw [List.range'_succ]
    show (if k < x0.n then _ else _ : PyM Ctrl Unit) c = _
    by_cases hkx : k < x0.n
    · rw [if_pos hkx, PyM.bind_ok (m := PyM.modify _) rfl, ih (k + 1) (by omega) (fun j => if j = k then x0.e k else a j)]
      · have e : inits nx (fun j => if k + 1 ≤ j ∧ j < x0.n then x0.e j else if j = k then x0.e k else a j)
            = inits nx (fun j => if k ≤ j ∧ j < x0.n then x0.e j else a j) := by
          refine inits_congr fun j hj => ?_
          rcases Nat.lt_trichotomy j k with h | h | h
          · rw [if_neg (by omega), if_neg (by omega), if_neg (by omega)]
          · rw [if_neg (by omega), if_pos h, if_pos (by omega), h]
          · by_cases h' : j < x0.n
            · rw [if_pos (by omega), if_pos (by omega)]
            · rw [if_neg (by omega), if_neg (by omega), if_neg (by omega)]
        rw [e]
        by_cases hn : n = 0
        · rw [if_neg (by simp [hn]), if_neg (by omega)]
          rfl
        · by_cases hl : x0.n < nx
          · rw [if_pos ⟨hl, hn⟩, if_pos ⟨hl, by omega⟩]
            rfl
          · rw [if_neg (by tauto), if_neg (by tauto)]
            rfl
      · show c.prog.cons.modify k _ = _
        rw [hc, modify_inits (by omega)]
    · have e : inits nx (fun j => if k ≤ j ∧ j < x0.n then x0.e j else a j) = inits nx a :=
        inits_congr fun j hj => if_neg (by omega)
      rw [if_neg hkx, if_pos (by omega), e, ← hc]
      rfl

theorem set_initial_condition_spec {x0 : Vec ℝ} {nx : ℕ} {a : ℕ → ℝ} {rest : List LinCon} {c : Ctrl} (hc : HasInits nx a rest c) :
    set_initial_condition x0 c = (if x0.n < nx then .error .runtimeError else .ok (),
      { c with prog := { c.prog with cons := inits nx (fun j => if j < x0.n then x0.e j else a j) ++ rest } }) := by
  unfold set_initial_condition
  have key := setFrom_spec x0 nx rest nx 0 (Nat.zero_add _) a c hc.cons
  rw [← List.range_eq_range', ← hc.ic] at key
  rw [PyM.bind_ok (PyM.get_apply c), key]
  have e : inits nx (fun j => if 0 ≤ j ∧ j < x0.n then x0.e j else a j) = inits nx (fun j => if j < x0.n then x0.e j else a j) :=
    inits_congr fun j _ => by by_cases h : j < x0.n <;> simp [h]
  rw [e]
  by_cases h : x0.n < nx
  · rw [if_pos ⟨h, by omega⟩, if_pos h]
  · rw [if_neg fun h' => h h'.1, if_neg h]

/-- `np.argmax` of a unit vector -/
theorem argmax_unit {d : Vec ℝ} {m : ℕ} (hm : m < d.n) (hd : ∀ j < d.n, d.e j = if j = m then 1 else 0) : argmax d = .ok m := by
  classical
  have : ∀ k ≤ d.n, (List.range k).foldl (fun b i => if d.e b < d.e i then i else b) 0 = if m < k then m else 0 := by
    intro k
    induction k with
    | zero => intro _; simp
    | succ k ih =>
      intro hk
      rw [List.range_succ, List.foldl_append, ih (by omega)]
      show (if d.e (if m < k then m else 0) < d.e k then k else (if m < k then m else 0)) = _
      rcases Nat.lt_trichotomy m k with h | h | h
      · rw [if_pos h, if_pos (show m < k + 1 by omega), hd m hm, hd k hk, if_pos rfl, if_neg (by omega : ¬ k = m), if_neg (by norm_num)]
      · subst h
        rw [if_neg (lt_irrefl m), if_pos (Nat.lt_succ_self m), hd 0 (by omega), hd m hm, if_pos rfl]
        by_cases h0 : 0 = m
        · rw [if_pos h0, if_neg (lt_irrefl _), h0]
        · rw [if_neg h0, if_pos (by norm_num)]
      · rw [if_neg (by omega : ¬ m < k), if_neg (by omega : ¬ m < k + 1), hd k hk, hd 0 (by omega), if_neg (by omega : ¬ k = m), if_neg (by omega : ¬ 0 = m), if_neg (lt_irrefl _)]
  unfold argmax
  rw [if_neg (by omega)]
  congr 1
  have := this d.n le_rfl
  rw [if_pos hm] at this
  convert this

end Example
end Verif
