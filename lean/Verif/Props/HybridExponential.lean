import Verif.Props.HybridHorizon
import Verif.Props.MpcExponential

/- The closed loop of the hybrid controller of `/repo/pympc/control/controllers.py` decreases exponentially (C151). -/
namespace Verif.Props
open Finset Spec Dyn Control

/-- finitely many bounds -/
theorem common_bound {s : ℕ} {P : ℕ → ℝ → Prop} (hmono : ∀ j a b, a ≤ b → P j a → P j b) (h : ∀ j < s, ∃ a, P j a) : ∃ a, 0 ≤ a ∧ ∀ j < s, P j a := by
  choose! f hf using h
  refine ⟨∑ j ∈ range s, |f j|, Finset.sum_nonneg fun _ _ => abs_nonneg _, fun j hj => hmono j (f j) _ ?_ (hf j hj)⟩
  exact (le_abs_self _).trans (Finset.single_le_sum (f := fun j => |f j|) (fun _ _ => abs_nonneg _) (mem_range.2 hj))

/-- a sum of products of bounded entries -/
theorem row_bound (n : ℕ) (a v : ℕ → ℝ) {r : ℝ} (hv : ∀ j < n, |v j| ≤ r) : |∑ j ∈ range n, a j * v j| ≤ (∑ j ∈ range n, |a j|) * r := by
  refine (Finset.abs_sum_le_sum_abs _ _).trans ?_
  rw [Finset.sum_mul]
  refine Finset.sum_le_sum fun j hj => ?_
  rw [abs_mul]
  exact mul_le_mul_of_nonneg_left (hv j (mem_range.1 hj)) (abs_nonneg _)

/-- images of bounded states and inputs are bounded -/
theorem affine_bound {nx nu : ℕ} {A B : Mat ℝ} {c : Vec ℝ} (hs : SystemShape nx nu A B c) (r : ℝ) : ∃ d, ∀ x u : ℕ → ℝ, (∀ k < nx, |x k| ≤ r) → (∀ k < nu, |u k| ≤ r) →
    ∀ k < nx, |Spec.affine A B c x u k| ≤ d := by
  obtain ⟨-, s2, -, s4, -⟩ := hs
  obtain ⟨d, -, hd⟩ := common_bound (s := nx) (P := fun k d => ∀ x u : ℕ → ℝ, (∀ k < nx, |x k| ≤ r) → (∀ k < nu, |u k| ≤ r) → |Spec.affine A B c x u k| ≤ d)
    (fun k a b hab h x u hx hu => (h x u hx hu).trans hab) fun k _ => by
      refine ⟨(∑ j ∈ range nx, |A.e k j|) * r + (∑ j ∈ range nu, |B.e k j|) * r + |c.e k|, fun x u hx hu => ?_⟩
      unfold Spec.affine
      rw [s2, s4]
      refine (abs_add_le _ _).trans (add_le_add_left ((abs_add_le _ _).trans (add_le_add (row_bound _ _ _ hx) (row_bound _ _ _ hu))) _)
  exact ⟨d, fun x u hx hu k hk => hd k hk x u hx hu⟩

/-- the costs of all trajectories in the domains are bounded -/
theorem hyb_cost_bounded {S : PWA} {N : ℕ} {Q R P : Mat ℝ} {X_N : Poly} (h : HybArgs S N Q R P X_N) (hg : GoodDomains S) :
    ∃ C, 0 ≤ C ∧ ∀ x m u, (hyb S N Q R P X_N).Feas x m u → (hyb S N Q R P X_N).cost x m u ≤ C := by
  obtain ⟨b, hb, hbd⟩ := common_bound (s := S.nm) (P := fun j r => ∀ w, InPoly (domAt S j).A (domAt S j).b (domAt S j).C (domAt S j).d w → ∀ k < S.nx + S.nu, |w k| ≤ r)
    (fun j a b hab h w hw k hk => (h w hw k hk).trans hab) fun j hj => hg.bounded j hj
  obtain ⟨d, hd, hdd⟩ := common_bound (s := S.nm) (P := fun j d => ∀ x u : ℕ → ℝ, (∀ k < S.nx, |x k| ≤ b) → (∀ k < S.nu, |u k| ≤ b) →
      ∀ k < S.nx, |Spec.affine (sysAt S j).A (sysAt S j).B (sysAt S j).c x u k| ≤ d)
    (fun j a b hab h x u hx hu k hk => (h x u hx hu k hk).trans hab) fun j hj =>
      affine_bound (h.pwa.sys _ (by
        have : j < S.affine_systems.length := by rw [h.pwa.lenS]; exact hj
        rw [show sysAt S j = S.affine_systems[j] from List.getD_eq_getElem _ _ this]
        exact List.getElem_mem this)).1 b
  set q := ∑ i ∈ range S.nx, ∑ j ∈ range S.nx, |Q.e i j| with hq
  set r := ∑ i ∈ range S.nu, ∑ j ∈ range S.nu, |R.e i j| with hr
  set f := ∑ i ∈ range S.nx, ∑ j ∈ range S.nx, |P.e i j| with hf
  have pos : ∀ (n : ℕ) (M : Mat ℝ), 0 ≤ ∑ i ∈ range n, ∑ j ∈ range n, |M.e i j| := fun n M => Finset.sum_nonneg fun i _ => Finset.sum_nonneg fun j _ => abs_nonneg _
  refine ⟨N * (1 / 2 * (q * b ^ 2 + r * b ^ 2)) + 1 / 2 * (f * d ^ 2), ?_, fun x m u hu => ?_⟩
  · have h1 := pos S.nx Q
    have h2 := pos S.nu R
    have h3 := pos S.nx P
    positivity
  · obtain ⟨f1, -⟩ := (HybOcp.feas_iff _ _ _).1 hu
    set p := hyb S N Q R P X_N with hp
    have hin : ∀ t < N, (∀ k < S.nx, |p.x x m u t k| ≤ b) ∧ ∀ k < S.nu, |u t k| ≤ b := by
      intro t ht
      obtain ⟨g1, g2⟩ := f1 t ht
      have := hbd (m t) g1 (pair S.nx (p.x x m u t) (u t)) g2
      refine ⟨fun k hk => ?_, fun k hk => ?_⟩
      · have := this k (by omega)
        rwa [show pair S.nx (p.x x m u t) (u t) k = p.x x m u t k from if_pos hk] at this
      · have := this (S.nx + k) (by omega)
        rwa [show pair S.nx (p.x x m u t) (u t) (S.nx + k) = u t (S.nx + k - S.nx) from if_neg (by omega), Nat.add_sub_cancel_left] at this
    have hend : ∀ k < S.nx, |p.x x m u N k| ≤ d := by
      obtain ⟨M, rfl⟩ : ∃ M, N = M + 1 := ⟨N - 1, by have := h.N; omega⟩
      obtain ⟨g1, g2⟩ := hin M (by omega)
      exact hdd (m M) (f1 M (by show M < M + 1; omega)).1 _ _ g1 g2
    rw [HybOcp.cost_eq]
    have st : ∀ t ∈ range p.N, p.stageCost (p.x x m u t) (u t) ≤ 1 / 2 * (q * b ^ 2 + r * b ^ 2) := by
      intro t ht
      obtain ⟨g1, g2⟩ := hin t (mem_range.1 ht)
      have h1 := quad_upper h.Q.1 h.Q.2.1 g1
      have h2 := quad_upper h.R.1 h.R.2 g2
      show 1 / 2 * (quad Q _ + quad R _) ≤ _
      linarith
    have h3 : quad p.P (p.x x m u p.N) ≤ f * d ^ 2 := quad_upper h.P.1 h.P.2.1 hend
    have h4 := Finset.sum_le_sum st
    rw [Finset.sum_const, card_range, nsmul_eq_mul] at h4
    have e : (p.N : ℝ) = N := rfl
    rw [e] at h4
    linarith

/-- states near the origin are in the terminal set -/
theorem near_terminal {X : Poly} {n : ℕ} (hn : X.A.nc = n) (h0 : ∀ i < X.A.nr, 0 < X.b.e i) :
    ∃ ρ > 0, ∀ x : ℕ → ℝ, ∑ j ∈ range n, |x j| ≤ ρ → IneqHold X.A X.b x := by
  have hex : ∀ i < X.A.nr, ∃ a : ℝ, 0 < a ∧ ∀ x : ℕ → ℝ, a * ∑ j ∈ range n, |x j| ≤ 1 → rowVal X.A i x ≤ X.b.e i := by
    intro i hi
    have hb := h0 i hi
    set s := ∑ j ∈ range n, |X.A.e i j| with hs
    have hs0 : 0 ≤ s := Finset.sum_nonneg fun _ _ => abs_nonneg _
    refine ⟨(s + 1) / X.b.e i, by positivity, fun x hx => ?_⟩
    have hx0 : 0 ≤ ∑ j ∈ range n, |x j| := Finset.sum_nonneg fun _ _ => abs_nonneg _
    have h1 : |rowVal X.A i x| ≤ s * ∑ j ∈ range n, |x j| := by
      unfold rowVal
      rw [hn]
      exact row_bound n _ _ fun j hj => Finset.single_le_sum (f := fun j => |x j|) (fun _ _ => abs_nonneg _) (mem_range.2 hj)
    rw [div_mul_eq_mul_div, div_le_one hb] at hx
    have h2 := le_abs_self (rowVal X.A i x)
    linarith
  obtain ⟨a, ha, hall⟩ := common_bound (s := X.A.nr) (P := fun i a => ∀ x : ℕ → ℝ, a * ∑ j ∈ range n, |x j| ≤ 1 → rowVal X.A i x ≤ X.b.e i)
    (fun i a b hab h x hx => h x (le_trans (mul_le_mul_of_nonneg_right hab (Finset.sum_nonneg fun _ _ => abs_nonneg _)) hx))
    fun i hi => by obtain ⟨a, -, h⟩ := hex i hi; exact ⟨a, h⟩
  refine ⟨1 / (a + 1), by positivity, fun x hx i hi => hall i hi x ?_⟩
  have hx0 : 0 ≤ ∑ j ∈ range n, |x j| := Finset.sum_nonneg fun _ _ => abs_nonneg _
  have := mul_le_mul_of_nonneg_left hx (show 0 ≤ a + 1 by linarith)
  rw [mul_one_div_cancel (by linarith)] at this
  linarith

/-- the optimal value is at most a multiple of the square of the size of the state -/
theorem hyb_value_bound {S : PWA} {N : ℕ} {Q R P : Mat ℝ} {X_N : Poly} (h : HybArgs S N Q R P X_N) (hg : GoodDomains S) (hno : (hyb S N Q R P X_N).NoEq)
    (hdec : (hyb S N Q R P X_N).TerminalDecrease) (h0 : ∀ i < X_N.A.nr, 0 < X_N.b.e i) :
    ∃ C, 0 ≤ C ∧ ∀ x m u, (hyb S N Q R P X_N).Opt x m u → (hyb S N Q R P X_N).cost x m u ≤ C * (∑ j ∈ range S.nx, |x j|) ^ 2 := by
  obtain ⟨ρ, hρ, hnear⟩ := near_terminal h.XN.1 h0
  obtain ⟨C, hC, hcost⟩ := hyb_cost_bounded h hg
  set f := ∑ i ∈ range S.nx, ∑ j ∈ range S.nx, |P.e i j| with hf
  have hf0 : 0 ≤ f := Finset.sum_nonneg fun i _ => Finset.sum_nonneg fun j _ => abs_nonneg _
  refine ⟨C / ρ ^ 2 + f, by positivity, fun x m u hu => ?_⟩
  have hx0 : 0 ≤ ∑ j ∈ range S.nx, |x j| := Finset.sum_nonneg fun _ _ => abs_nonneg _
  rcases le_or_gt (∑ j ∈ range S.nx, |x j|) ρ with hle | hgt
  · have hterm : (hyb S 0 Q R P X_N).Feas x (fun _ => 0) (fun _ _ => 0) :=
      (HybOcp.feas_iff _ _ _).2 ⟨fun t ht => absurd ht (Nat.not_lt_zero t), hnear x hle, eqHold_of_noEq hno.2 _⟩
    obtain ⟨m', v, g1, g2⟩ := (hyb_extend hterm N (Nat.zero_le _)).2 hdec
    have g3 : (hyb S 0 Q R P X_N).cost x (fun _ => 0) (fun _ _ => 0) = 1 / 2 * quad P x := by
      rw [HybOcp.cost_eq]
      show ∑ t ∈ range 0, _ + _ = _
      rw [Finset.sum_range_zero, zero_add]
      rfl
    have g4 : quad P x ≤ f * (∑ j ∈ range S.nx, |x j|) ^ 2 :=
      quad_upper h.P.1 h.P.2.1 fun i hi => Finset.single_le_sum (f := fun j => |x j|) (fun _ _ => abs_nonneg _) (mem_range.2 hi)
    have g5 := hu.2 m' v g1
    have g6 : 0 ≤ C / ρ ^ 2 * (∑ j ∈ range S.nx, |x j|) ^ 2 := by positivity
    have g7 : 0 ≤ f * (∑ j ∈ range S.nx, |x j|) ^ 2 := by positivity
    rw [add_mul]
    linarith
  · have g1 := hcost x m u hu.1
    have g2 : ρ ^ 2 ≤ (∑ j ∈ range S.nx, |x j|) ^ 2 := pow_le_pow_left₀ hρ.le hgt.le 2
    have g3 : C ≤ C / ρ ^ 2 * (∑ j ∈ range S.nx, |x j|) ^ 2 := by
      rw [div_mul_eq_mul_div, le_div_iff₀ (by positivity)]
      exact mul_le_mul_of_nonneg_left g2 hC
    have g4 : 0 ≤ f * (∑ j ∈ range S.nx, |x j|) ^ 2 := by positivity
    rw [add_mul]
    linarith

/-- from squares to numbers -/
theorem size_of_sq {l C ρ s z V : ℝ} (hl : 0 < l) (hC : 0 ≤ C) (hρ : 0 ≤ ρ) (hz : 0 ≤ z) (t : ℕ) (h1 : l / 2 * s ^ 2 ≤ V) (h2 : V ≤ ρ ^ t * (C * z ^ 2)) :
    s ≤ Real.sqrt (2 * C / l) * Real.sqrt ρ ^ t * z := by
  refine abs_le_of_sq_le_sq' ?_ (by positivity) |>.2
  have e : (Real.sqrt (2 * C / l) * Real.sqrt ρ ^ t * z) ^ 2 = 2 * C / l * ρ ^ t * z ^ 2 := by
    rw [mul_pow, mul_pow, Real.sq_sqrt (by positivity), ← pow_mul, mul_comm t 2, pow_mul, Real.sq_sqrt hρ]
  rw [e, div_mul_eq_mul_div, div_mul_eq_mul_div, le_div_iff₀ hl]
  linarith

/-- C151: let the domains have no equalities and `Q` be positive definite, let the terminal cost decrease by the stage cost in the terminal set, and let the origin be an interior point of the latter.
Then there are `M` and `r < 1`, which depend on the controller only, such that the states and inputs of each closed loop of `simulate` and `feedback` are at most `M r^t` times the size of the initial
state, as long as the programs have no tiny entries and overlapping modes agree in the visited states. -/
theorem C151 (S : PWA) (N : ℕ) (Q R P : Mat ℝ) (X_N : Poly)
    (h : HybArgs S N Q R P X_N) (hw : Weights S.nx S.nu Q R P) (hnx : 0 < S.nx) (hg : GoodDomains S) (hS : PwaOk S)
    (hno : (hyb S N Q R P X_N).NoEq) (hQ : ∀ x, (∃ i < S.nx, x i ≠ 0) → 0 < quad Q x) (hdec : (hyb S N Q R P X_N).TerminalDecrease)
    (h0 : ∀ i < X_N.A.nr, 0 < X_N.b.e i) :
    ∃ M r : ℝ, 0 ≤ M ∧ 0 ≤ r ∧ r < 1 ∧ ∀ L, LibSpec L → ∀ G, GurobiSpec G → ∀ c, HMPC.init L S N Q R P X_N = .ok c → ∀ (x u : ℕ → Vec ℝ) (T : ℕ),
      HybridLoop G c S x u T → (∀ t ≤ T, MiNoTiny c.mpmiqp (x t).e) → (∀ t < T, ModesAgree S (x t) (u t)) →
      ∀ t < T, (∀ i < S.nx, |(x t).e i| ≤ M * r ^ t * ∑ l ∈ range S.nx, |(x 0).e l|) ∧
        ∀ s < S.nu, |(u t).e s| ≤ M * r ^ t * ∑ l ∈ range S.nx, |(x 0).e l| := by
  set p := hyb S N Q R P X_N with hp
  have hwp : Weights p.nx p.nu p.Q p.R p.P := hw
  obtain ⟨C0, hC0, hval⟩ := hyb_value_bound h hg hno hdec h0
  obtain ⟨l, hl, hlow⟩ := quad_lower_sum h.Q.1 h.Q.2.1 hw.Q0 hQ
  have hR0 : ∀ x, 0 ≤ quad R x := by
    intro x
    have := HybOcp.stageCost_nonneg hwp (fun _ => 0) x
    have e : quad p.Q (fun _ => 0) = 0 := by simp [quad]
    unfold HybOcp.stageCost at this
    rw [e] at this
    have e' : quad p.R x = quad R x := rfl
    rw [e'] at this
    linarith
  obtain ⟨lr, hlr, hlowr⟩ := quad_lower_sum h.R.1 h.R.2 hR0 hw.Rpos
  set C := C0 + l with hCdef
  have hCpos : 0 < C := by linarith
  set ρ := 1 - l / (2 * C) with hρ
  have hρ1 : ρ < 1 := by
    have : 0 < l / (2 * C) := by positivity
    linarith
  have hρ0 : 0 ≤ ρ := by
    have : l / (2 * C) ≤ 1 := by
      rw [div_le_one (by positivity)]
      linarith
    linarith
  refine ⟨Real.sqrt (2 * C / l) + Real.sqrt (2 * C / lr), Real.sqrt ρ, by positivity, Real.sqrt_nonneg _, by rw [Real.sqrt_lt' one_pos]; simpa using hρ1,
    fun L hL G hG c hrun x u T hcl htiny hagr => ?_⟩
  set z := ∑ l ∈ range S.nx, |(x 0).e l| with hz
  have hz0 : 0 ≤ z := Finset.sum_nonneg fun _ _ => abs_nonneg _
  have hstep := ((C100_partial L hL G hG S N Q R P X_N h hw hnx hg hS hno c hrun x u T hcl htiny hagr).2 hdec).1
  have hxn : ∀ t ≤ T, (x t).n = S.nx := by
    intro t
    induction t with
    | zero => intro _; exact hcl.1
    | succ t ih =>
      intro hT
      obtain ⟨e1, m, e2⟩ := hcl.2 t (by omega)
      obtain ⟨un, -⟩ := hybrid_step hL hG h hw hnx hg hS hno hrun (ih (by omega)) (htiny t (by omega)) e1
      exact (simulate_one hS (ih (by omega)) un e2).2.1
  -- the answers along the loop: their values are bounded from both sides
  have ans : ∀ t < T, ∃ a, c.feedforward G (x t) = .ok (some a) ∧ a.V ≤ C * (∑ j ∈ range S.nx, |(x t).e j|) ^ 2 ∧ p.stageCost (x t).e (u t).e ≤ a.V := by
    intro t ht
    obtain ⟨a, k1, -, k2, k3, k4⟩ := (hybrid_answer hL hG h hw hnx hg hno hrun (hxn t ht.le) (htiny t ht.le)).1 (u t) (hcl.2 t ht).1
    refine ⟨a, k1, ?_, ?_⟩
    · rw [k3.value]
      refine (hval _ _ _ k4).trans (mul_le_mul_of_nonneg_right (by linarith) (sq_nonneg _))
    · rw [k3.value, HybOcp.cost_eq, ← k2]
      have a3 := hwp.P0 (p.x (x t).e (fun t => a.modes.getD t 0) (inputsOf a.u) p.N)
      have a4 := Finset.single_le_sum (f := fun τ => p.stageCost (p.x (x t).e (fun t => a.modes.getD t 0) (inputsOf a.u) τ) (inputsOf a.u τ))
        (fun τ _ => HybOcp.stageCost_nonneg hwp _ _) (mem_range.2 (show 0 < p.N from h.N))
      simp only [HybOcp.x_zero] at a4
      linarith
  have low : ∀ t, l / 2 * (∑ j ∈ range S.nx, |(x t).e j|) ^ 2 ≤ p.stageCost (x t).e (u t).e := by
    intro t
    have b2 := hlow (x t).e
    have b3 := hR0 (u t).e
    show _ ≤ 1 / 2 * (quad Q _ + quad R _)
    linarith
  have lowr : ∀ t, lr / 2 * (∑ j ∈ range S.nu, |(u t).e j|) ^ 2 ≤ p.stageCost (x t).e (u t).e := by
    intro t
    have b2 := hlowr (u t).e
    have b3 := hw.Q0 (x t).e
    show _ ≤ 1 / 2 * (quad Q _ + quad R _)
    linarith
  have dec : ∀ t < T, ∀ a, c.feedforward G (x t) = .ok (some a) → a.V ≤ ρ ^ t * (C * z ^ 2) := by
    intro t
    induction t with
    | zero =>
      intro ht a ha
      obtain ⟨b, k1, k2, -⟩ := ans 0 ht
      rw [ha] at k1
      cases k1
      rwa [pow_zero, one_mul]
    | succ t ih =>
      intro ht a' ha'
      obtain ⟨a, k1, k2, -⟩ := ans t (by omega)
      have k3 := ih (by omega) a k1
      have k4 := hstep t (by omega) a a' k1 ha'
      have k5 := low t
      have b5 : l / (2 * C) * a.V ≤ l / 2 * (∑ i ∈ range S.nx, |(x t).e i|) ^ 2 := by
        calc l / (2 * C) * a.V ≤ l / (2 * C) * (C * (∑ i ∈ range S.nx, |(x t).e i|) ^ 2) := mul_le_mul_of_nonneg_left k2 (by positivity)
          _ = l / 2 * (∑ i ∈ range S.nx, |(x t).e i|) ^ 2 := by field_simp
      have b6 : a'.V ≤ ρ * a.V := by
        rw [hρ]
        linarith
      calc a'.V ≤ ρ * a.V := b6
        _ ≤ ρ * (ρ ^ t * (C * z ^ 2)) := mul_le_mul_of_nonneg_left k3 hρ0
        _ = _ := by rw [pow_succ]; ring
  intro t ht
  obtain ⟨a, k1, -, k2⟩ := ans t ht
  have k3 := dec t ht a k1
  have s1 := size_of_sq hl hCpos.le hρ0 hz0 t ((low t).trans k2) k3
  have s2 := size_of_sq hlr hCpos.le hρ0 hz0 t ((lowr t).trans k2) k3
  have p1 : 0 ≤ Real.sqrt (2 * C / l) * Real.sqrt ρ ^ t * z := by positivity
  have p2 : 0 ≤ Real.sqrt (2 * C / lr) * Real.sqrt ρ ^ t * z := by positivity
  refine ⟨fun i hi => ?_, fun s hs => ?_⟩
  · have := Finset.single_le_sum (f := fun j => |(x t).e j|) (fun _ _ => abs_nonneg _) (mem_range.2 hi)
    rw [add_mul, add_mul]
    linarith
  · have := Finset.single_le_sum (f := fun j => |(u t).e j|) (fun _ _ => abs_nonneg _) (mem_range.2 hs)
    rw [add_mul, add_mul]
    linarith

/-- the program of `oneMode` has no tiny entries in states that are not tiny and not close to the boundary -/
theorem oneMode_noTiny {L : Lib} (hL : LibSpec L) {c : HMPC} (hrun : HMPC.init L oneMode 1 one1 one1 (weight 2) interval1 = .ok c) {x : ℕ → ℝ}
    (h1 : NotTiny (x 0)) (h2 : NotTiny (1 - x 0)) (h3 : NotTiny (1 + x 0)) : MiNoTiny c.mpmiqp x := by
  obtain ⟨-, g1, g2, -⟩ := init_inv dz_args hrun
  obtain ⟨k1, k2⟩ := intSys_bigM hL dz_args.pwa oneMode_good oneMode_int g1 g2
  have z : ∀ (a : ℝ) (n : ℤ), a = n → NotTiny a := fun a n e => e ▸ notTiny_int n
  have z0 : NotTiny 0 := Or.inl rfl
  have z1 : NotTiny 1 := z _ 1 (by norm_num)
  have sys : ∀ T ∈ oneMode.affine_systems, T = ⟨⟨1, 1, fun _ _ => 1⟩, ⟨1, 1, fun _ _ => 1⟩, ⟨1, fun _ => 0⟩, 1, 1⟩ := fun T hT => by simpa [oneMode] using hT
  have dom : ∀ D ∈ oneMode.domains, D = strip (-1) 1 := fun D hD => by simpa [oneMode] using hD
  refine miNoTiny_of_data dz_args hrun ⟨fun T hT => ?_, fun D hD => ?_, all_one1, all_one1, fun _ _ _ _ => z _ 2 (by simp [weight]),
    fun i hi j hj => ?_, fun i hi => z _ 1 (by simp [interval1, Poly.fresh])⟩ k1 k2 (fun T hT k hk => ?_) (fun D hD k hk => ?_)
  · rw [sys T hT]
    exact ⟨fun _ _ _ _ => z1, fun _ _ _ _ => z1, fun _ _ => z0⟩
  · rw [dom D hD]
    refine ⟨fun i hi j hj => ?_, fun i hi => ?_⟩
    · show NotTiny (if i = 0 then (if j = 0 then 1 else 0) else if i = 1 then (if j = 0 then -1 else 0)
        else if i = 2 then (if j = 0 then 0 else 1) else (if j = 0 then 0 else -1))
      split_ifs
      all_goals first | exact z0 | exact z1 | exact notTiny_neg _ z1
    · have hi : i < 4 := hi
      interval_cases i <;> simp only [strip, Poly.fresh] <;> norm_num <;> exact z1
  · have hi : i < 2 := hi
    interval_cases i
    · exact z _ 1 (by simp [interval1, Poly.fresh])
    · exact z _ (-1) (by simp [interval1, Poly.fresh])
  · rw [sys T hT]
    simpa [rowVal] using h1
  · rw [dom D hD] at hk ⊢
    have hk : k < 4 := hk
    rw [oneMode_int.nx]
    interval_cases k <;> simp [strip, Poly.fresh, rowVal, Mat.colsTo]
    · exact h2
    · exact h3
    · exact z1
    · exact z1

/-- one step of the closed loop of `oneMode`: the state is divided by three -/
theorem third_step {L : Lib} (hL : LibSpec L) {G : Gurobi} (hG : GurobiSpec G) {c : HMPC} (hrun : HMPC.init L oneMode 1 one1 one1 (weight 2) interval1 = .ok c)
    {x : Vec ℝ} (hx : x.n = 1) (ht : MiNoTiny c.mpmiqp x.e) (h0 : 0 ≤ x.e 0) (h1 : x.e 0 ≤ 1) :
    ∃ p : Vec ℝ × Vec ℝ, c.feedback G x = .ok (some p.1) ∧ (∃ m, oneMode.simulate x [p.1] = .ok ([x, p.2], [m])) ∧ p.2.n = 1 ∧ p.2.e 0 = x.e 0 / 3 := by
  obtain ⟨ans, hex⟩ := hybrid_answer hL hG dz_args weights12 one_pos oneMode_good dz_noEq hrun hx ht
  have hf : ∀ w : ℝ, -1 ≤ w → w ≤ 1 → -1 ≤ x.e 0 + w → x.e 0 + w ≤ 1 → (hyb oneMode 1 one1 one1 (weight 2) interval1).Feas x.e (fun _ => 0) (fun _ _ => w) := by
    intro w w1 w2 w3 w4
    refine ⟨⟨fun t ht => one_pos, fun t ht => ?_, ?_⟩, fun t _ => eqHold_of_noEq rfl _, eqHold_of_noEq rfl _⟩
    · have ht : t < 1 := ht
      interval_cases t
      exact ((strip_mem (lo := -1) (hi := 1) _).2 (by simp [pair, hyb, oneMode, HybOcp.x, Spec.traj]; exact ⟨h1, by linarith, w2, w1⟩)).1
    · refine (interval1_term _).2 ?_
      simp [HybOcp.x, Spec.traj, Spec.affine, hyb, oneMode]
      exact ⟨w3, w4⟩
  have hc : ∀ (m : ℕ → ℕ) (u : ℕ → ℕ → ℝ), m 0 = 0 → (hyb oneMode 1 one1 one1 (weight 2) interval1).cost x.e m u =
      1 / 2 * (x.e 0 ^ 2 + u 0 0 ^ 2) + (x.e 0 + u 0 0) ^ 2 := by
    intro m u hm
    rw [HybOcp.cost_eq]
    show ∑ t ∈ range 1, 1 / 2 * (quad one1 _ + quad one1 _) + 1 / 2 * quad (weight 2) _ = _
    rw [Finset.sum_range_one, one1_quad, one1_quad, weight_quad, HybOcp.x_zero]
    have : (hyb oneMode 1 one1 one1 (weight 2) interval1).x x.e m u (hyb oneMode 1 one1 one1 (weight 2) interval1).N 0 = x.e 0 + u 0 0 := by
      show (hyb oneMode 1 one1 one1 (weight 2) interval1).x x.e m u 1 0 = _
      rw [HybOcp.x_succ, HybOcp.x_zero, hm]
      simp [HybOcp.next, Spec.affine, hyb, oneMode]
    rw [this]
    ring
  obtain ⟨v, hv⟩ := hex ⟨_, _, hf 0 (by norm_num) (by norm_num) (by linarith) (by linarith)⟩
  obtain ⟨a, -, vn, ve, -, vo⟩ := ans v hv
  have vn : v.n = 1 := vn
  have hm : a.modes.getD 0 0 = 0 := by
    have := vo.1.1.1 0 one_pos
    have : a.modes.getD 0 0 < 1 := this
    omega
  have hv0 : v.e 0 = -(2 / 3) * x.e 0 := by
    have := vo.2 _ _ (hf (-(2 / 3) * x.e 0) (by linarith) (by linarith) (by linarith) (by linarith))
    rw [hc (fun t => a.modes.getD t 0) _ hm, hc (fun _ => 0) _ rfl, ve] at this
    have h2 : (v.e 0 + 2 / 3 * x.e 0) ^ 2 ≤ 0 := by nlinarith
    have h3 := pow_eq_zero_iff two_ne_zero |>.1 (le_antisymm h2 (sq_nonneg _))
    linarith
  have e0 : (x.append v).e 0 = x.e 0 := Vec.append_e_lt _ _ (by omega)
  have e1 : (x.append v).e 1 = -(2 / 3) * x.e 0 := by
    have := Vec.append_e_add x v 0
    rw [hx] at this
    exact this.trans hv0
  obtain ⟨y, m, hy⟩ := simulate_step oneMode_ok (x := x) (u := v) hx vn (j := 0) one_pos rfl
    ((strip_mem (lo := -1) (hi := 1) _).2 (by rw [e0, e1]; exact ⟨h1, by linarith, by linarith, by linarith⟩)).1
  obtain ⟨k1, yn, ye⟩ := simulate_one oneMode_ok hx vn hy
  refine ⟨(v, y), hv, ⟨m, hy⟩, yn, ?_⟩
  have hm : m < 1 := k1.lt oneMode_ok
  obtain rfl : m = 0 := by omega
  rw [ye 0 one_pos]
  simp [Spec.affine, oneMode, hv0]
  ring

/-- C151 on `oneMode`: the closed loop from `1` is `1, 1/3, 1/9, …`; up to time 18 the programs have no tiny entries -/
example : ∃ M r : ℝ, 0 ≤ M ∧ 0 ≤ r ∧ r < 1 ∧ ∀ L, LibSpec L → ∀ G, GurobiSpec G → ∃ c, HMPC.init L oneMode 1 one1 one1 (weight 2) interval1 = .ok c ∧
    ∃ x u : ℕ → Vec ℝ, HybridLoop G c oneMode x u 18 ∧ ∀ t < 18, (x t).e 0 = (1 / 3) ^ t ∧ |(x t).e 0| ≤ M * r ^ t ∧ |(u t).e 0| ≤ M * r ^ t := by
  obtain ⟨M, r, hM, hr, hr1, h⟩ := C151 oneMode 1 one1 one1 (weight 2) interval1 dz_args weights12 one_pos oneMode_good oneMode_ok dz_noEq
    (by
      rintro x ⟨i, hi, hx⟩
      have hi : i < 1 := hi
      obtain rfl : i = 0 := by omega
      rw [one1_quad]
      positivity) dz_decrease (fun i _ => by simp [interval1, Poly.fresh])
  refine ⟨M, r, hM, hr, hr1, fun L hL G hG => ?_⟩
  obtain ⟨c, hrun, -, -⟩ := C72 L hL oneMode 1 one1 one1 (weight 2) interval1 dz_args one_pos oneMode_good
  refine ⟨c, hrun, ?_⟩
  have hstep : ∀ x : Vec ℝ, x.n = 1 ∧ MiNoTiny c.mpmiqp x.e ∧ 0 ≤ x.e 0 ∧ x.e 0 ≤ 1 → ∃ p : Vec ℝ × Vec ℝ, c.feedback G x = .ok (some p.1) ∧
      (∃ m, oneMode.simulate x [p.1] = .ok ([x, p.2], [m])) ∧ p.2.n = 1 ∧ p.2.e 0 = x.e 0 / 3 :=
    fun x hx => third_step hL hG hrun hx.1 hx.2.1 hx.2.2.1 hx.2.2.2
  choose! p hp1 hp2 hp3 hp4 using hstep
  let x : ℕ → Vec ℝ := fun t => Nat.rec ⟨1, fun _ => 1⟩ (fun _ y => (p y).2) t
  have tiny : ∀ t ≤ 18, ∀ y : Vec ℝ, y.e 0 = (1 / 3) ^ t → MiNoTiny c.mpmiqp y.e ∧ 0 ≤ y.e 0 ∧ y.e 0 ≤ 1 := by
    intro t ht y hy
    have pos : (0 : ℝ) < (1 / 3) ^ t := by positivity
    have le1 : (1 / 3 : ℝ) ^ t ≤ 1 := pow_le_one₀ (by norm_num) (by norm_num)
    have low : (1 / 3 : ℝ) ^ 18 ≤ (1 / 3) ^ t := pow_le_pow_of_le_one (by norm_num) (by norm_num) ht
    norm_num at low
    refine ⟨oneMode_noTiny hL hrun ?_ ?_ ?_, by rw [hy]; exact pos.le, by rw [hy]; exact le1⟩
    · rw [hy]
      right
      rw [abs_of_pos pos]
      norm_num
      linarith
    · rw [hy]
      rcases Nat.eq_zero_or_pos t with rfl | h1
      · left
        norm_num
      · right
        have : (1 / 3 : ℝ) ^ t ≤ (1 / 3) ^ 1 := pow_le_pow_of_le_one (by norm_num) (by norm_num) h1
        rw [pow_one] at this
        rw [abs_of_pos (by linarith)]
        norm_num at this ⊢
        linarith
    · rw [hy]
      right
      rw [abs_of_pos (by linarith)]
      norm_num at pos ⊢
      linarith
  have hinv : ∀ t ≤ 18, (x t).n = 1 ∧ (x t).e 0 = (1 / 3) ^ t := by
    intro t
    induction t with
    | zero => exact fun _ => ⟨rfl, by norm_num [x]⟩
    | succ t ih =>
      intro ht
      obtain ⟨i1, i2⟩ := ih (by omega)
      have hh := tiny t (by omega) _ i2
      refine ⟨hp3 _ ⟨i1, hh⟩, ?_⟩
      show (p (x t)).2.e 0 = _
      rw [hp4 _ ⟨i1, hh⟩, i2, pow_succ]
      ring
  have good : ∀ t ≤ 18, (x t).n = 1 ∧ MiNoTiny c.mpmiqp (x t).e ∧ 0 ≤ (x t).e 0 ∧ (x t).e 0 ≤ 1 := fun t ht =>
    ⟨(hinv t ht).1, tiny t ht _ (hinv t ht).2⟩
  have hl : HybridLoop G c oneMode x (fun t => (p (x t)).1) 18 := ⟨rfl, fun t ht => ⟨hp1 _ (good t ht.le), hp2 _ (good t ht.le)⟩⟩
  refine ⟨x, fun t => (p (x t)).1, hl, fun t ht => ⟨(hinv t ht.le).2, ?_⟩⟩
  obtain ⟨b1, b2⟩ := h L hL G hG c hrun x _ 18 hl (fun t ht => (good t ht).2.1) (fun t _ => oneMode_agree _ _) t ht
  have b1 := b1 0 one_pos
  have b2 := b2 0 one_pos
  have e : ∑ l ∈ range oneMode.nx, |(x 0).e l| = 1 := by
    show ∑ l ∈ range 1, |(1 : ℝ)| = 1
    simp
  rw [e, mul_one] at b1 b2
  exact ⟨b1, b2⟩

end Verif.Props
