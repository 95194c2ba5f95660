import Verif.Model.UrdfNotebook
import Verif.Proofs.Notebooks
import Verif.Props.Notebooks
import Verif.Props.Plant
import Verif.Props.Example

/- The notebook of the cart-pole from its description: C137 of properties.jsonl. -/
namespace Verif.Props
open Finset Spec Dyn Control Notebook Voronoi Plant

/-- the angle of the linearization `i` -/
noncomputable def angle (a b : ℝ) (n i : ℕ) : ℝ := a + i * thetaStep a b n

/-- the least angle of the domain `i`: halfway to the previous linearization, or one step below the first -/
noncomputable def angleLow (a b : ℝ) (n i : ℕ) : ℝ := if i = 0 then a - thetaStep a b n else angle a b n i - thetaStep a b n / 2

/-- the greatest angle of the domain `i`: halfway to the next linearization, or one step above the last -/
noncomputable def angleHigh (a b : ℝ) (n i : ℕ) : ℝ := if i + 1 = n then b + thetaStep a b n else angle a b n i + thetaStep a b n / 2

/-- state and input of mode `i` -/
def InMode (a b : ℝ) (n : ℕ) (p v w f : ℝ) (i : ℕ) (z : ℕ → ℝ) : Prop :=
  |z 0| ≤ p ∧ (angleLow a b n i ≤ z 1 ∧ z 1 ≤ angleHigh a b n i) ∧ |z 2| ≤ v ∧ |z 3| ≤ w ∧ |z 4| ≤ f

theorem points_length (a b : ℝ) (n : ℕ) : (linearizationPoints a b n).length = n := by
  simp [linearizationPoints, Plot.linspace]

theorem points_pt (a b : ℝ) {n i : ℕ} (hi : i < n) : pt (linearizationPoints a b n) i = vec [0, angle a b n i, 0, 0] := by
  unfold pt
  rw [List.getD_eq_getElem _ _ (by rw [points_length]; exact hi)]
  simp [linearizationPoints, Plot.linspace, angle, thetaStep]

theorem points_mem {a b : ℝ} {n : ℕ} {q : Vec ℝ} (h : q ∈ linearizationPoints a b n) : ∃ i < n, q = vec [0, angle a b n i, 0, 0] := by
  obtain ⟨i, hi, rfl⟩ := Voronoi.mem_pt h
  rw [points_length] at hi
  exact ⟨i, hi, points_pt a b hi⟩

theorem mem_points (a b : ℝ) {n i : ℕ} (hi : i < n) : vec [0, angle a b n i, 0, 0] ∈ linearizationPoints a b n := by
  rw [← points_pt a b hi]
  exact Voronoi.pt_mem (by rw [points_length]; exact hi)

theorem step_pos {a b : ℝ} {n : ℕ} (hab : a < b) (hn : 2 ≤ n) : 0 < thetaStep a b n := by
  have : (2 : ℝ) ≤ n := by exact_mod_cast hn
  exact div_pos (by linarith) (by linarith)

theorem angle_last {a b : ℝ} {n : ℕ} (hn : 2 ≤ n) : angle a b n (n - 1) = b := by
  have h2 : (2 : ℝ) ≤ n := by exact_mod_cast hn
  unfold angle thetaStep
  rw [Nat.cast_sub (by omega), Nat.cast_one]
  field_simp [show (n : ℝ) - 1 ≠ 0 by linarith]
  ring

/-- the points closest to the linearization `i` -/
theorem closest_points {a b : ℝ} {n i : ℕ} (hab : a < b) (hn : 2 ≤ n) (hi : i < n) (z : ℕ → ℝ) :
    Closest 4 (linearizationPoints a b n) i z ↔
      (i = 0 ∨ angle a b n i - thetaStep a b n / 2 ≤ z 1) ∧ (i + 1 = n ∨ z 1 ≤ angle a b n i + thetaStep a b n / 2) := by
  have hδ := step_pos hab hn
  rw [Voronoi.closest_iff, points_length]
  have hd : ∀ k < n, (sqDist 4 z (pt (linearizationPoints a b n) i).e ≤ sqDist 4 z (pt (linearizationPoints a b n) k).e ↔
      0 ≤ (angle a b n k - angle a b n i) * (angle a b n k + angle a b n i - 2 * z 1)) := by
    intro k hk
    rw [points_pt a b hi, points_pt a b hk]
    simp only [sqDist, Finset.sum_range_succ, Finset.sum_range_zero, vec, Vec.ofList, List.getD_cons_zero, List.getD_cons_succ]
    constructor <;> intro h <;> nlinarith
  constructor
  · intro h
    constructor
    · rcases Nat.eq_zero_or_pos i with h0 | h0
      · exact .inl h0
      · right
        obtain ⟨j, rfl⟩ : ∃ j, i = j + 1 := ⟨i - 1, by omega⟩
        have := (hd j (by omega)).1 (h j (by omega))
        unfold angle at this ⊢
        push_cast at this ⊢
        nlinarith
    · by_cases h0 : i + 1 = n
      · exact .inl h0
      · right
        have := (hd (i + 1) (by omega)).1 (h (i + 1) (by omega))
        unfold angle at this ⊢
        push_cast at this ⊢
        nlinarith
  · rintro ⟨h1, h2⟩ k hk
    rw [hd k hk]
    rcases lt_trichotomy k i with hki | rfl | hki
    · have h1 := h1.resolve_left (by omega)
      have hc : (k : ℝ) + 1 ≤ i := by exact_mod_cast hki
      unfold angle at h1 ⊢
      have e1 : a + (k : ℝ) * thetaStep a b n - (a + i * thetaStep a b n) ≤ 0 := by nlinarith
      have e2 : a + (k : ℝ) * thetaStep a b n + (a + i * thetaStep a b n) - 2 * z 1 ≤ 0 := by nlinarith
      nlinarith
    · simp
    · have h2 := h2.resolve_left (by omega)
      have hc : (i : ℝ) + 1 ≤ k := by exact_mod_cast hki
      unfold angle at h2 ⊢
      have e1 : 0 ≤ a + (k : ℝ) * thetaStep a b n - (a + i * thetaStep a b n) := by nlinarith
      have e2 : 0 ≤ a + (k : ℝ) * thetaStep a b n + (a + i * thetaStep a b n) - 2 * z 1 := by nlinarith
      positivity

theorem mapM_from {α β : Type} {g : α → Py β} {l : List α} {r : List β} (h : l.mapM g = .ok r) {y : β} (hy : y ∈ r) : ∃ x ∈ l, g x = .ok y := by
  have h2 := Sympy.mapM_forall₂ h
  clear h
  induction h2 with
  | nil => cases hy
  | cons h1 _ ih =>
    rcases List.mem_cons.1 hy with rfl | hy
    · exact ⟨_, List.mem_cons_self, h1⟩
    · obtain ⟨x, hx, hg⟩ := ih hy
      exact ⟨x, List.mem_cons_of_mem _ hx, hg⟩

theorem add_keeps {A : Mat ℝ} {b : NDArr ℝ} {idx : Option (List ℕ)} {q r : Poly} (h : Poly.runOn q (Poly.add_inequality A b idx) = .ok r) : r.C = q.C := by
  have h := runOn_ok.1 h
  rw [Poly.add_inequality_run] at h
  split_ifs at h with h1 h2
  · cases h
  · cases h
  · cases b with
    | d1 v => cases h; rfl
    | d2 M => cases h

theorem lift_noeq {nx : ℕ} {idx : List ℕ} {X : Option Poly} {c r : Poly} (h : Voronoi.lift nx idx X c = .ok r) : r.C.nr = 0 := by
  unfold Voronoi.lift at h
  obtain ⟨q, h1, h⟩ := Py.bind_eq_ok h
  obtain ⟨q', h2, h⟩ := Py.bind_eq_ok h
  have e1 : q.C.nr = 0 := by
    obtain ⟨v, -, -, h3 | ⟨C', w, h3, -⟩⟩ := Poly.init_eq_ok.1 h1
    · rw [h3.2.2]; rfl
    · cases h3
  have e2 := add_keeps h2
  cases X with
  | none =>
    cases h
    rw [e2, e1]
  | some X => rw [add_keeps h, e2, e1]

/-- the domains have no equalities if `U` has none -/
theorem plant_noeq {V : Vor} {T : Taylor} {points : List (Vec ℝ)} {X : Option Poly} {U : Poly} {h : ℝ} {m : Method} {S : PWA}
    (hS : pwa_from_RigidBodyPlant V T points X U h m = .ok S) (hU : U.C.nr = 0) : ∀ D ∈ S.domains, D.C.nr = 0 := by
  unfold pwa_from_RigidBodyPlant at hS
  obtain ⟨cells, h1, hS⟩ := Py.bind_eq_ok hS
  obtain ⟨domains, h2, hS⟩ := Py.bind_eq_ok hS
  obtain ⟨systems, h3, hS⟩ := Py.bind_eq_ok hS
  have hd : S.domains = domains := by
    unfold PWA.init at hS
    split_ifs at hS
    · cases hS
    obtain ⟨_, -, hS⟩ := Py.bind_eq_ok hS
    obtain ⟨_, -, hS⟩ := Py.bind_eq_ok hS
    obtain ⟨_, -, hS⟩ := Py.bind_eq_ok hS
    simp only at hS
    split_ifs at hS
    · cases hS
    obtain ⟨_, -, hS⟩ := Py.bind_eq_ok hS
    cases hS
    rfl
  have hcell : ∀ c ∈ cells, c.C.nr = 0 := by
    intro c hc
    unfold constrained_voronoi at h1
    cases points with
    | nil => cases h1
    | cons p ps =>
      simp only at h1
      split_ifs at h1
      obtain ⟨_, -, h1⟩ := Py.bind_eq_ok h1
      obtain ⟨_, -, h1⟩ := Py.bind_eq_ok h1
      obtain ⟨_, -, h1⟩ := mapM_from h1 hc
      exact lift_noeq h1
  rw [hd]
  intro D hD
  obtain ⟨c, hc, h4⟩ := mapM_from h2 hD
  unfold Poly.cartesian_product at h4
  obtain ⟨_, -, h4⟩ := Py.bind_eq_ok h4
  obtain ⟨_, -, h4⟩ := Py.bind_eq_ok h4
  obtain ⟨v, -, -, h3 | ⟨C', w, h3, -, -, h5⟩⟩ := Poly.init_eq_ok.1 h4
  · cases h3.1
  · cases h3
    rw [h5]
    show c.C.nr + (U.C.nr + 0) = 0
    rw [hcell c hc, hU]

theorem points_args {a b : ℝ} {n : ℕ} (hab : a < b) (hn : 2 ≤ n) (hsep : 1e-8 + 1e-5 * |b| < b - a) :
    Distinct 4 (linearizationPoints a b n) ∧ Separated 4 (linearizationPoints a b n) ∧ OneVaries 4 (linearizationPoints a b n) 1 ∧
      (linearizationPoints a b n).Pairwise fun p q => p.e 1 < q.e 1 := by
  have hδ := step_pos hab hn
  have hlt : ∀ i j : ℕ, i < j → angle a b n i < angle a b n j := fun i j hij => by
    have : (i : ℝ) < j := by exact_mod_cast hij
    unfold angle
    nlinarith
  have h0 : angle a b n 0 = a := by simp [angle]
  have hvar : Varies (linearizationPoints a b n) 1 :=
    ⟨_, mem_points a b (show 0 < n by omega), _, mem_points a b (show 1 < n by omega), (hlt 0 1 one_pos).ne⟩
  have hconst : ∀ d < 4, Varies (linearizationPoints a b n) d → d = 1 := by
    rintro d hd ⟨p, hp, q, hq, hpq⟩
    obtain ⟨i, -, rfl⟩ := points_mem hp
    obtain ⟨j, -, rfl⟩ := points_mem hq
    interval_cases d <;> simp [vec, Vec.ofList] at hpq ⊢
  refine ⟨fun i hi j hj hij => ⟨1, by omega, ?_⟩, fun c hc hv => ?_, ⟨by omega, hvar, hconst⟩, ?_⟩
  · rw [points_length] at hi hj
    have e1 := points_pt a b hi
    have e2 := points_pt a b hj
    unfold pt at e1 e2
    rw [e1, e2]
    show angle a b n i ≠ angle a b n j
    rcases lt_or_gt_of_ne hij with h | h
    · exact (hlt i j h).ne
    · exact (hlt j i h).ne'
  · rw [hconst c hc hv]
    refine ⟨_, mem_points a b (show 0 < n by omega), _, mem_points a b (show n - 1 < n by omega), fun r hr => ?_, ?_⟩
    · obtain ⟨i, hi, rfl⟩ := points_mem hr
      show angle a b n i ≤ angle a b n (n - 1)
      rcases lt_or_eq_of_le (show i ≤ n - 1 by omega) with h | h
      · exact (hlt _ _ h).le
      · rw [h]
    · show 1e-8 + 1e-5 * |angle a b n (n - 1)| < angle a b n (n - 1) - angle a b n 0
      rw [angle_last hn, h0]
      exact hsep
  · rw [List.pairwise_iff_getElem]
    intro i j hi hj hij
    rw [points_length] at hi hj
    have e1 := points_pt a b hi
    have e2 := points_pt a b hj
    unfold pt at e1 e2
    rw [List.getD_eq_getElem _ _ (by rw [points_length]; exact hi)] at e1
    rw [List.getD_eq_getElem _ _ (by rw [points_length]; exact hj)] at e2
    rw [e1, e2]
    exact hlt i j hij

theorem sets_ok {a b : ℝ} {n : ℕ} (p v w f : ℝ) : ∃ X U, urdfSets a b n p v w f = .ok (X, U) ∧ X.Inv 4 ∧ X.C.nr = 0 ∧ U.Inv 1 ∧ U.C.nr = 0 ∧
    (∀ z, X.Mem z ↔ |z 0| ≤ p ∧ (a - thetaStep a b n ≤ z 1 ∧ z 1 ≤ b + thetaStep a b n) ∧ |z 2| ≤ v ∧ |z 3| ≤ w) ∧ ∀ z, U.Mem z ↔ |z 0| ≤ f := by
  obtain ⟨X, h1, -, h2⟩ := dom_bounds 4 (vec [-p, a - thetaStep a b n, -v, -w]) (vec [p, b + thetaStep a b n, v, w]) (by omega) rfl rfl
  obtain ⟨U, h3, -, h4⟩ := dom_bounds 1 (vec [-f]) (vec [f]) one_pos rfl rfl
  refine ⟨X, U, ?_, h2.inv, h2.noeq, h4.inv, h4.noeq, fun z => ?_, fun z => ?_⟩
  · unfold urdfSets
    rw [h1, Py.ok_bind, h3]
    rfl
  · rw [h2.mem, forall_lt_four]
    simp [vec, Vec.ofList, abs_le]
  · rw [h4.mem, forall_lt_one]
    simp [vec, Vec.ofList, abs_le]

theorem inMode_iff {a b : ℝ} {n i : ℕ} (hab : a < b) (hn : 2 ≤ n) (hi : i < n) (p v w f : ℝ) (z : ℕ → ℝ) :
    (Closest 4 (linearizationPoints a b n) i z ∧ (|z 0| ≤ p ∧ (a - thetaStep a b n ≤ z 1 ∧ z 1 ≤ b + thetaStep a b n) ∧ |z 2| ≤ v ∧ |z 3| ≤ w) ∧ |z 4| ≤ f) ↔
      InMode a b n p v w f i z := by
  have hδ := step_pos hab hn
  have hlo : a ≤ angle a b n i := by unfold angle; nlinarith [show (0 : ℝ) ≤ i from Nat.cast_nonneg i]
  have hhi : angle a b n i ≤ b := by
    refine le_trans ?_ (angle_last (a := a) (b := b) hn).le
    have : (i : ℝ) ≤ ((n - 1 : ℕ) : ℝ) := by exact_mod_cast (show i ≤ n - 1 by omega)
    unfold angle
    nlinarith
  rw [closest_points hab hn hi]
  unfold InMode angleLow angleHigh
  constructor
  · rintro ⟨⟨h1, h2⟩, ⟨h3, ⟨h4, h5⟩, h6, h7⟩, h8⟩
    refine ⟨h3, ⟨?_, ?_⟩, h6, h7, h8⟩
    · split_ifs with h
      · exact h4
      · exact h1.resolve_left h
    · split_ifs with h
      · exact h5
      · exact h2.resolve_left h
  · rintro ⟨h3, ⟨h1, h2⟩, h6, h7, h8⟩
    refine ⟨⟨?_, ?_⟩, ⟨h3, ⟨?_, ?_⟩, h6, h7⟩, h8⟩
    · by_cases h : i = 0
      · exact .inl h
      · rw [if_neg h] at h1
        exact .inr h1
    · by_cases h : i + 1 = n
      · exact .inl h
      · rw [if_neg h] at h2
        exact .inr h2
    · split_ifs at h1 <;> linarith
    · split_ifs at h2 <;> linarith

/-- C137: the notebook `cart_pole_from_urdf.ipynb`, for every plant with four states and one input that is differentiable at the linearization points and all
parameters (at least two linearizations; a range of the angle wider than the tolerance of `isclose`).  The cells that build the piecewise affine system and
the controller run.  There is one mode per linearization: it is valid for the angles closer to this linearization than to the others, up to one step
beyond the first and the last one, and steps as the exact solution of the linearized plant; each state and input within the bounds belongs to
a mode.  Unless `big_m` rounds down a violation (C93): after any calls, the output of the controller is nan exactly if no inputs drive the state to the origin within
the bounds and the horizon, and else it is the first input of a cheapest plan that does. -/
theorem C137 (L : Lib) (hL : LibSpec L) (V : Vor) (hV : VorSpec V) (F : Field 4) (T : Taylor) (hT : TaylorSpec F T) (a b : ℝ) (n : ℕ) (hn : 2 ≤ n)
    (hab : 1e-8 + 1e-5 * |b| < b - a) (p v w f h : ℝ) (hp : 0 ≤ p) (hv : 0 ≤ v) (hw : 0 ≤ w) (hf : 0 ≤ f) (hh : 0 ≤ h) (N : ℕ) (hN : 0 < N)
    (J : ℕ → (Fin 4 → ℝ) × (Fin 1 → ℝ) →L[ℝ] (Fin 4 → ℝ))
    (hJ : ∀ i < n, HasFDerivAt F (J i) (fun k => (vec [0, angle a b n i, 0, 0]).e k, 0)) :
    ∃ S X_N c, urdfCells L V T a b n p v w f h N = .ok (S, X_N, c) ∧ S.nx = 4 ∧ S.nu = 1 ∧ S.nm = n ∧
      (∀ i < n, (∀ z, (domAt S i).Mem z ↔ InMode a b n p v w f i z) ∧
        Discretizes (linearized F (J i) (vec [0, angle a b n i, 0, 0]).e) h .zeroOrderHold (sysAt S i)) ∧
      (∀ z, |z 0| ≤ p → a - thetaStep a b n ≤ z 1 → z 1 ≤ b + thetaStep a b n → |z 2| ≤ v → |z 3| ≤ w → |z 4| ≤ f → ∃ i < n, InMode a b n p v w f i z) ∧
      ∀ P : HybOcp, P = hyb S N (Mat.smul (1 / 100) (Mat.eye 4)) (Mat.smul (1 / 100) (Mat.eye 1)) (Mat.smul (1 / 100) (Mat.eye 4)) X_N →
        (∀ x0 m u, P.Feas x0 m u ↔ (∀ t < N, m t < n ∧ InMode a b n p v w f (m t) (pair 4 (P.x x0 m u t) (u t))) ∧ ∀ k < 4, P.x x0 m u N k = 0) ∧
        ∀ D, Example.SolverSpec D → Example.NoCut S → ∀ c', Reach D c c' → ∀ x0 : Vec ℝ, x0.n = 4 → ∃ o, (calcOutput D 1 x0 c').1 = .ok o ∧
          (o = [none] ↔ ∀ m u, ¬ P.Feas x0.e m u) ∧
          ((∃ m u, P.Feas x0.e m u) → ∃ m u, P.Opt x0.e m u ∧ o = [some (u 0 0)]) := by
  have hab' : a < b := by
    have : 0 ≤ |b| := abs_nonneg b
    norm_num at hab
    linarith
  obtain ⟨q1, q2, q3, q4⟩ := points_args hab' hn hab
  obtain ⟨X, U, s1, s2, s3, s4, s5, s6, s7⟩ := sets_ok (a := a) (b := b) (n := n) p v w f
  have hne : linearizationPoints a b n ≠ [] := fun h0 => by
    have := congrArg List.length h0
    rw [points_length] at this
    simp only [List.length_nil] at this
    omega
  obtain ⟨c1, c2, -⟩ := C95_partial V hV 4 F T hT (linearizationPoints a b n) hne (fun r hr => by obtain ⟨i, -, rfl⟩ := points_mem hr; rfl) q1 q2
    (fun c hc => by rw [q3.2.2 c hc.1 hc.2.1]; exact q4) J (fun i hi => by rw [points_length] at hi; rw [points_pt a b hi]; exact hJ i hi) (some X)
    (fun X' h' => by cases h'; exact s2) U s4 h hh .zeroOrderHold (by simp)
  obtain ⟨S, hS⟩ := c2 ⟨1, q3⟩
  obtain ⟨d1, d2, d3, d4, d5, -⟩ := c1 S hS
  rw [points_length] at d4
  have hX : ∀ z, InBounds 4 (some X) z ↔ |z 0| ≤ p ∧ (a - thetaStep a b n ≤ z 1 ∧ z 1 ≤ b + thetaStep a b n) ∧ |z 2| ≤ v ∧ |z 3| ≤ w := fun z => by
    rw [← s6, mem_noeq s3]
    unfold InBounds rowVal
    rw [s2.1]
    exact ⟨fun k => k X rfl, fun k X' h' => by cases h'; exact k⟩
  have hm : ∀ i < n, ∀ z, (domAt S i).Mem z ↔ InMode a b n p v w f i z := fun i hi z => by
    rw [(d5 i (by rw [points_length]; exact hi)).1 z, hX, s7, inMode_iff hab' hn hi]
  have hC : ∀ i < n, (domAt S i).C.nr = 0 := fun i hi =>
    plant_noeq hS s5 _ (getD_mem poly0 (by rw [d3.lenD, d4]; exact hi))
  obtain ⟨XN, x1, -, x2⟩ := dom_bounds 4 (Vec.zeros 4) (Vec.zeros 4) (by omega) rfl rfl
  have hXm : ∀ z, XN.Mem z ↔ ∀ k < 4, z k = 0 := fun z => by
    rw [x2.mem]
    refine forall₂_congr fun k _ => ?_
    show (0 : ℝ) - 0 ≤ z k ∧ z k ≤ 0 + 0 ↔ _
    rw [sub_zero, add_zero]
    exact ⟨fun h => le_antisymm h.2 h.1, fun h => ⟨h.ge, h.le⟩⟩
  have hδ := step_pos hab' hn
  -- a point and a bound of each mode
  have hgood : Example.GoodIneqs S := by
    have hb : ∀ i < n, IsBounded 5 (domAt S i).A (domAt S i).b (domAt S i).C (domAt S i).d := fun i hi => by
      refine ⟨p + v + w + f + |angleLow a b n i| + |angleHigh a b n i|, fun z hz j hj => ?_⟩
      obtain ⟨z0, ⟨z1, z2⟩, z3, z4, z5⟩ := (hm i hi z).1 hz
      have a1 := abs_nonneg (angleLow a b n i)
      have a2 := abs_nonneg (angleHigh a b n i)
      have a3 := neg_abs_le (angleLow a b n i)
      have a4 := le_abs_self (angleHigh a b n i)
      interval_cases j
      · linarith
      · exact abs_le.2 ⟨by linarith, by linarith⟩
      · linarith
      · linarith
      · linarith
    refine ⟨fun j hj => ?_, fun j hj => ?_, fun j hj => ?_⟩
    · rw [d4] at hj
      exact (Poly.hasRows_of_bounded (by omega) (hb j hj)).resolve_right (by rw [hC j hj]; omega)
    · rw [d4] at hj
      refine ⟨fun k => if k = 1 then angle a b n j else 0, ((hm j hj _).2 ⟨by simpa using hp, ⟨?_, ?_⟩, by simpa using hv, by simpa using hw, by simpa using hf⟩).1⟩
      · show angleLow a b n j ≤ if 1 = 1 then angle a b n j else 0
        rw [if_pos rfl]
        unfold angleLow
        split_ifs with h0
        · rw [h0]; unfold angle; push_cast; linarith
        · linarith
      · show (if 1 = 1 then angle a b n j else 0) ≤ angleHigh a b n j
        rw [if_pos rfl]
        unfold angleHigh
        split_ifs with h0
        · obtain rfl : j = n - 1 := by omega
          rw [angle_last hn]; linarith
        · linarith
    · rw [d4] at hj
      obtain ⟨R, hR⟩ := hb j hj
      exact ⟨R, fun z hz k hk => hR z ⟨hz, fun i hi => absurd hi (by rw [hC j hj]; omega)⟩ k (by rw [d1, d2] at hk; exact hk)⟩
  have hq : ∀ (m : ℕ) (z : ℕ → ℝ), quad (Mat.smul (1 / 100) (Mat.eye m)) z = ∑ i ∈ range m, 1 / 100 * z i ^ 2 := fun m z => by
    unfold quad
    refine Finset.sum_congr rfl fun i hi => ?_
    rw [Finset.sum_eq_single i]
    · show z i * (1 / 100 * (if i = i then 1 else 0)) * z i = _
      rw [if_pos rfl]
      ring
    · intro j _ hj
      show z i * (1 / 100 * (if i = j then 1 else 0)) * z j = 0
      rw [if_neg (Ne.symm hj)]
      ring
    · exact fun h => absurd hi h
  have hsym : ∀ m, SymMat m (Mat.smul (1 / 100) (Mat.eye m)) := fun m => ⟨rfl, rfl, fun i _ j _ => by
    show 1 / 100 * (if i = j then (1 : ℝ) else 0) = 1 / 100 * (if j = i then 1 else 0)
    simp only [eq_comm]⟩
  have hargs : HybArgs S N (Mat.smul (1 / 100) (Mat.eye S.nx)) (Mat.smul (1 / 100) (Mat.eye S.nu)) (Mat.smul (1 / 100) (Mat.eye S.nx)) XN :=
    ⟨d3, hN, hsym _, hsym _, ⟨rfl, rfl⟩, by rw [d1]; exact ⟨x2.inv.1, x2.inv.2.1⟩⟩
  have hwt : Weights S.nx S.nu (Mat.smul (1 / 100) (Mat.eye S.nx)) (Mat.smul (1 / 100) (Mat.eye S.nu)) (Mat.smul (1 / 100) (Mat.eye S.nx)) := by
    have h0 : ∀ m (z : ℕ → ℝ), 0 ≤ quad (Mat.smul (1 / 100) (Mat.eye m)) z := fun m z => by
      rw [hq]
      exact Finset.sum_nonneg fun i _ => by positivity
    refine ⟨hsym _, hsym _, hsym _, h0 _, h0 _, ?_⟩
    rintro u ⟨s, hs, hu⟩
    rw [hq]
    exact Finset.sum_pos' (fun i _ => by positivity) ⟨s, mem_range.2 hs, by positivity⟩
  obtain ⟨Gs, mm, c, rest, -, -, hci, -⟩ := Example.init_ok hL hargs hgood (by omega)
  refine ⟨S, XN, c, ?_, d1, d2, d4, fun i hi => ⟨hm i hi, ?_⟩, ?_, ?_⟩
  · unfold urdfCells
    rw [s1, Py.ok_bind]
    show (pwa_from_RigidBodyPlant V T _ _ U h >>= _) = _
    rw [hS, Py.ok_bind]
    show (Poly.from_bounds (.arr (.d1 (Vec.zeros S.nx))) (.arr (.d1 (Vec.zeros S.nx))) >>= _) = _
    have : Poly.from_bounds (.arr (.d1 (Vec.zeros S.nx))) (.arr (.d1 (Vec.zeros S.nx))) = .ok XN := by rw [d1]; exact x1
    rw [this, Py.ok_bind]
    show (Example.init L S N _ _ _ XN >>= _) = _
    rw [hci]
    rfl
  · have := (d5 i (by rw [points_length]; exact hi)).2
    rwa [points_pt a b hi] at this
  · intro z z0 z1 z2 z3 z4 z5
    obtain ⟨i, hi, hmin⟩ := Finset.exists_min_image (range n) (fun i => sqDist 4 z (pt (linearizationPoints a b n) i).e) ⟨0, mem_range.2 (by omega)⟩
    exact ⟨i, mem_range.1 hi, (inMode_iff hab' hn (mem_range.1 hi) p v w f z).1
      ⟨Voronoi.closest_iff.2 fun k hk => hmin k (mem_range.2 (by rw [points_length] at hk; exact hk)), ⟨z0, ⟨z1, z2⟩, z3, z4⟩, z5⟩⟩
  · rintro P rfl
    have hno : (hyb S N (Mat.smul (1 / 100) (Mat.eye 4)) (Mat.smul (1 / 100) (Mat.eye 1)) (Mat.smul (1 / 100) (Mat.eye 4)) XN).NoEq :=
      ⟨fun i hi => hC i (by rw [← d4]; exact hi), x2.noeq⟩
    refine ⟨fun x0 m u => ?_, fun D hD hcut c1 hc1 x0 hx0 => ?_⟩
    · set P := hyb S N (Mat.smul (1 / 100) (Mat.eye 4)) (Mat.smul (1 / 100) (Mat.eye 1)) (Mat.smul (1 / 100) (Mat.eye 4)) XN with hPdef
      constructor
      · rintro ⟨⟨f1, f2, f3⟩, f4, f5⟩
        refine ⟨fun t ht => ?_, (hXm _).1 ⟨f3, f5⟩⟩
        have h1 : m t < n := by rw [← d4]; exact f1 t ht
        have := (hm (m t) h1 _).1 ⟨f2 t ht, f4 t ht⟩
        rw [show P.nx = 4 from d1] at this
        exact ⟨h1, this⟩
      · rintro ⟨f1, f2⟩
        have h3 : ∀ t < N, (domAt S (m t)).Mem (pair P.nx (P.x x0 m u t) (u t)) := fun t ht => by
          rw [show P.nx = 4 from d1]
          exact (hm (m t) (f1 t ht).1 _).2 (f1 t ht).2
        have h4 := (hXm _).2 f2
        exact ⟨⟨fun t ht => by show m t < S.nm; rw [d4]; exact (f1 t ht).1, fun t ht => (h3 t ht).1, h4.1⟩, fun t ht => (h3 t ht).2, h4.2⟩
    · obtain ⟨c', e1, e2⟩ := C93 L hL D hD S N _ _ _ XN hargs hwt hgood (by omega) hcut
      obtain rfl : c' = c := Except.ok.inj (e1.symm.trans hci)
      obtain ⟨o, e3, -, e4, e5⟩ := e2 x0 (by rw [d1, hx0])
      rw [d1, d2] at e4 e5
      obtain ⟨e6, e7⟩ := e5 hno
      have hback := ((C94 L D S N _ _ _ XN c' hci c1 hc1 x0).1 (by rw [d1, hx0])).2
      have hout : (calcOutput D 1 x0 c1).1 = (MPC.firstInput (o.map (·.u)) >>= assignInput 1) := by
        unfold calcOutput
        rw [PyM.bind_apply, hback, ← PyM.bind_apply]
        unfold Example.feedback
        cases hs : Example.feedforward D x0 c' with
        | mk r c2 =>
          rw [hs] at e3
          cases e3
          rw [PyM.bind_apply, PyM.bind_ok hs, PyM.lift_apply]
          cases MPC.firstInput (o.map (·.u)) <;> rfl
      rw [hout]
      cases o with
      | none => exact ⟨[none], rfl, ⟨fun _ => e6.1 rfl, fun _ => rfl⟩, fun ⟨m, u, hf'⟩ => absurd hf' (e6.1 rfl m u)⟩
      | some r =>
        obtain ⟨hcon, -⟩ := e4 r rfl
        have hlen : 0 < r.u.length := by rw [hcon.inputs.1]; exact hN
        have g1 : np.listGet r.u 0 = .ok (r.u.getD 0 ⟨0, fun _ => 0⟩) := Dyn.listGet_ok _ hlen
        have g2 : (r.u.getD 0 ⟨0, fun _ => 0⟩).n = 1 := (hcon.inputs.2 _ (getD_mem _ hlen)).trans d2
        refine ⟨[some (inputsOf r.u 0 0)], ?_, ⟨fun h0 => by simp at h0, fun h0 => absurd (e6.2 h0) (by simp)⟩, fun _ => ⟨_, _, e7 r rfl, rfl⟩⟩
        show (np.listGet r.u 0 >>= _) >>= _ = _
        rw [g1, Py.ok_bind]
        show assignInput 1 (some (r.u.getD 0 ⟨0, fun _ => 0⟩)) = _
        exact (if_pos g2).trans rfl

/-- the equations of motion of `/repo/examples/pwa_from_urdf/cart_pole.urdf`: cart and point mass of 1 kg, a pole of 1 m, the track pointing against the
axis from which the angle is measured -/
noncomputable def urdfField : Field 4 := fun z =>
  let q := (z.2 0 + 9.81 * Real.sin (z.1 1) * Real.cos (z.1 1) - z.1 3 ^ 2 * Real.sin (z.1 1)) / (1 + Real.sin (z.1 1) ^ 2)
  ![z.1 2, z.1 3, q, 9.81 * Real.sin (z.1 1) + Real.cos (z.1 1) * q]

theorem urdfField_differentiable : Differentiable ℝ urdfField := by
  have hs : ∀ z : (Fin 4 → ℝ) × (Fin 1 → ℝ), 1 + Real.sin (z.1 1) ^ 2 ≠ 0 := fun z => by positivity
  have hq : Differentiable ℝ fun z : (Fin 4 → ℝ) × (Fin 1 → ℝ) =>
      (z.2 0 + 9.81 * Real.sin (z.1 1) * Real.cos (z.1 1) - z.1 3 ^ 2 * Real.sin (z.1 1)) / (1 + Real.sin (z.1 1) ^ 2) := by
    simp only [div_eq_mul_inv]
    refine Differentiable.mul (by fun_prop) (Differentiable.fun_inv (by fun_prop) hs)
  refine differentiable_pi.2 fun i => ?_
  fin_cases i
  · show Differentiable ℝ fun z : (Fin 4 → ℝ) × (Fin 1 → ℝ) => z.1 2
    fun_prop
  · show Differentiable ℝ fun z : (Fin 4 → ℝ) × (Fin 1 → ℝ) => z.1 3
    fun_prop
  · exact hq
  · refine Differentiable.add ?_ (Differentiable.mul ?_ hq) <;> fun_prop

/-- C137 for the values of the notebook and the equations of motion above: the cells run, for some answers of the libraries, and give three modes; the second
one is valid for the angles between `-0.15 π` and `0.15 π`, the third one up to `0.6 π` -/
example (L : Lib) (hL : LibSpec L) : ∃ V T, VorSpec V ∧ TaylorSpec urdfField T ∧ ∃ S X_N c,
    urdfCells L V T (-(Real.pi * 0.3)) (Real.pi * 0.3) 3 3 10 10 100 0.05 20 = .ok (S, X_N, c) ∧ S.nm = 3 ∧
      (∀ z, (domAt S 1).Mem z ↔ |z 0| ≤ 3 ∧ |z 1| ≤ Real.pi * 0.15 ∧ |z 2| ≤ 10 ∧ |z 3| ≤ 10 ∧ |z 4| ≤ 100) ∧
      ∀ z, (domAt S 2).Mem z → Real.pi * 0.15 ≤ z 1 ∧ z 1 ≤ Real.pi * 0.6 := by
  obtain ⟨V, hV⟩ := exists_vor
  obtain ⟨T, hT⟩ := exists_taylor urdfField
  have hpi := Real.two_le_pi
  have hst : thetaStep (-(Real.pi * 0.3)) (Real.pi * 0.3) 3 = Real.pi * 0.3 := by
    unfold thetaStep
    norm_num
  obtain ⟨S, X_N, c, h1, -, -, h4, h5, -⟩ := C137 L hL V hV urdfField T hT (-(Real.pi * 0.3)) (Real.pi * 0.3) 3 (by norm_num)
    (by rw [abs_of_nonneg (by positivity)]; norm_num; linarith) 3 10 10 100 0.05 (by norm_num) (by norm_num) (by norm_num) (by norm_num) (by norm_num) 20
    (by norm_num) _ (fun i _ => (urdfField_differentiable _).hasFDerivAt)
  refine ⟨V, T, hV, hT, S, X_N, c, h1, h4, fun z => ?_, fun z hz => ?_⟩
  · rw [(h5 1 (by norm_num)).1]
    unfold InMode angleLow angleHigh angle
    rw [hst, abs_le (a := z 1)]
    rw [if_neg (by norm_num), if_neg (by norm_num)]
    refine and_congr_right fun _ => and_congr_left fun _ => ?_
    norm_num
    constructor <;> rintro ⟨e1, e2⟩ <;> constructor <;> linarith
  · rw [(h5 2 (by norm_num)).1] at hz
    unfold InMode angleLow angleHigh angle at hz
    rw [hst] at hz
    norm_num at hz
    obtain ⟨-, ⟨e1, e2⟩, -⟩ := hz
    constructor <;> norm_num <;> linarith

end Verif.Props
