import Verif.Proofs.Condense
import Verif.Props.Discretization

/- Simulation and condensing: C50, C51 of properties.jsonl. -/
namespace Verif.Props
open Dyn Spec Finset

/-- `xs` is the trajectory of the time-varying affine system from `x0` with inputs `u` -/
def IsTrajectory (nx : ℕ) (A B : ℕ → Mat ℝ) (c : ℕ → Vec ℝ) (x0 : Vec ℝ) (u xs : List (Vec ℝ)) : Prop :=
  xs.length = u.length + 1 ∧ xs[0]? = some x0 ∧ (∀ x ∈ xs, x.n = nx) ∧
    ∀ t x y v, xs[t]? = some x → xs[t + 1]? = some y → u[t]? = some v →
      ∀ i < nx, y.e i = Spec.affine (A t) (B t) (c t) x.e v.e i

theorem IsTrajectory.nil {nx : ℕ} {A B : ℕ → Mat ℝ} {c : ℕ → Vec ℝ} {x : Vec ℝ} (hx : x.n = nx) :
    IsTrajectory nx A B c x [] [x] := ⟨rfl, rfl, by simpa using hx, by simp⟩

theorem IsTrajectory.cons {nx : ℕ} {A B : ℕ → Mat ℝ} {c : ℕ → Vec ℝ} {x y v : Vec ℝ} {u xs : List (Vec ℝ)}
    (hx : x.n = nx) (h : IsTrajectory nx (fun t => A (t + 1)) (fun t => B (t + 1)) (fun t => c (t + 1)) y u xs)
    (hy : ∀ i < nx, y.e i = Spec.affine (A 0) (B 0) (c 0) x.e v.e i) :
    IsTrajectory nx A B c x (v :: u) (x :: xs) := by
  obtain ⟨h1, h2, h3, h4⟩ := h
  refine ⟨by simp [h1], rfl, ?_, ?_⟩
  · intro z hz
    rcases List.mem_cons.1 hz with rfl | hz
    · exact hx
    · exact h3 z hz
  · intro t a b w ha hb hw i hi
    cases t with
    | zero =>
      simp only [Nat.zero_add, List.getElem?_cons_zero, List.getElem?_cons_succ, Option.some.injEq] at ha hb hw
      rw [h2] at hb
      cases hb; subst ha hw
      exact hy i hi
    | succ t =>
      simp only [List.getElem?_cons_succ] at ha hb hw
      exact h4 t a b w ha hb hw i hi

/-- the trajectory is determined by the initial state and the inputs -/
theorem IsTrajectory.traj {nx nu : ℕ} {A B : ℕ → Mat ℝ} {c : ℕ → Vec ℝ} {x0 : Vec ℝ} {u xs : List (Vec ℝ)}
    (h : IsTrajectory nx A B c x0 u xs) (hA : ∀ t < u.length, (A t).nc = nx) (hB : ∀ t < u.length, (B t).nc = nu) (v : ℕ → ℕ → ℝ)
    (hv : ∀ t w, u[t]? = some w → ∀ s < nu, v t s = w.e s) :
    ∀ t x, xs[t]? = some x → ∀ i < nx, x.e i = Spec.traj A B c x0.e v t i := by
  obtain ⟨h1, h2, h3, h4⟩ := h
  intro t
  induction t with
  | zero => intro x hx i _; rw [h2] at hx; cases hx; rfl
  | succ t ih =>
    intro y hy i hi
    have hlt : t + 1 < xs.length := (List.getElem?_eq_some_iff.1 hy).1
    have hx : xs[t]? = some xs[t] := List.getElem?_eq_getElem (by omega)
    have hw : u[t]? = some u[t] := List.getElem?_eq_getElem (by omega)
    rw [h4 t _ y _ hx hy hw i hi]
    simp only [Spec.traj, Spec.affine]
    congr 2
    · refine Finset.sum_congr rfl fun j hj => ?_
      have := mem_range.1 hj
      rw [ih _ hx j (by rw [hA t (by omega)] at this; exact this)]
    · refine Finset.sum_congr rfl fun j hj => ?_
      have := mem_range.1 hj
      rw [hv t _ hw j (by rw [hB t (by omega)] at this; exact this)]

/-- C50: `simulate` of affine and linear systems, and `simulate_closed_loop`, return the initial state followed by one
state per step, each obtained from the previous one by the law of the system. -/
theorem C50 (nx nu : ℕ) (A B : Mat ℝ) (c : Vec ℝ) (hS : Spec.SystemShape nx nu A B c) (x0 : Vec ℝ) (hx0 : x0.n = nx)
    (cached : Option Bool) :
    (∀ u : List (Vec ℝ), (∀ v ∈ u, v.n = nu) →
      (∃ xs, (⟨A, B, c, nx, nu⟩ : AffineSystem).simulate x0 u = .ok xs ∧
        IsTrajectory nx (fun _ => A) (fun _ => B) (fun _ => c) x0 u xs) ∧
      ∃ xs, (⟨A, B, nx, nu, cached⟩ : LinearSystem).simulate x0 u = .ok xs ∧
        IsTrajectory nx (fun _ => A) (fun _ => B) (fun _ => Vec.zeros nx) x0 u xs) ∧
    ∀ (N : ℕ) (K : Mat ℝ), K.nr = nu → K.nc = nx →
      ∃ xs u : List (Vec ℝ), (⟨A, B, nx, nu, cached⟩ : LinearSystem).simulate_closed_loop x0 N K = .ok xs ∧ u.length = N ∧
        IsTrajectory nx (fun _ => A) (fun _ => B) (fun _ => Vec.zeros nx) x0 u xs ∧
        ∀ (t : ℕ) (x v : Vec ℝ), xs[t]? = some x → u[t]? = some v → v.n = nu ∧ ∀ s < nu, v.e s = rowVal K s x.e := by
  obtain ⟨a1, a2, b1, b2, c1⟩ := hS
  refine ⟨fun u hu => ⟨?_, ?_⟩, ?_⟩
  · unfold AffineSystem.simulate
    induction u generalizing x0 with
    | nil => exact ⟨[x0], rfl, .nil hx0⟩
    | cons v u ih =>
      have hv := hu v (by simp)
      have e1 : np.dotMV A x0 = .ok (A.mulVec x0) := if_pos (by omega)
      have e2 : np.dotMV B v = .ok (B.mulVec v) := if_pos (by omega)
      have e3 : np.addV (A.mulVec x0) (B.mulVec v) = .ok ((A.mulVec x0).add (B.mulVec v)) := if_pos (by simp [a1, b1])
      have e4 : np.addV ((A.mulVec x0).add (B.mulVec v)) c = .ok (((A.mulVec x0).add (B.mulVec v)).add c) :=
        if_pos (by simp [a1, c1])
      obtain ⟨xs, h1, h2⟩ := ih (((A.mulVec x0).add (B.mulVec v)).add c) (by simp [a1]) (fun w hw => hu w (by simp [hw]))
      refine ⟨x0 :: xs, ?_, h2.cons hx0 fun i _ => rfl⟩
      rw [AffineSystem.simulateFrom]
      rw [e1, Py.ok_bind, e2, Py.ok_bind, e3, Py.ok_bind, e4, Py.ok_bind, h1]
      rfl
  · unfold LinearSystem.simulate
    induction u generalizing x0 with
    | nil => exact ⟨[x0], rfl, .nil hx0⟩
    | cons v u ih =>
      have hv := hu v (by simp)
      have e1 : np.dotMV A x0 = .ok (A.mulVec x0) := if_pos (by omega)
      have e2 : np.dotMV B v = .ok (B.mulVec v) := if_pos (by omega)
      have e3 : np.addV (A.mulVec x0) (B.mulVec v) = .ok ((A.mulVec x0).add (B.mulVec v)) := if_pos (by simp [a1, b1])
      obtain ⟨xs, h1, h2⟩ := ih ((A.mulVec x0).add (B.mulVec v)) (by simp [a1]) (fun w hw => hu w (by simp [hw]))
      refine ⟨x0 :: xs, ?_, h2.cons hx0 fun i _ => (add_zero _).symm⟩
      rw [LinearSystem.simulateFrom]
      rw [e1, Py.ok_bind, e2, Py.ok_bind, e3, Py.ok_bind, h1]
      rfl
  · intro N K k1 k2
    unfold LinearSystem.simulate_closed_loop
    have e1 : np.dotMM B K = .ok (B.mul K) := if_pos (by omega)
    have e2 : np.addM A (B.mul K) = .ok (A.add (B.mul K)) := if_pos ⟨by simp [a1, b1], by simp [a2, k2]⟩
    induction N generalizing x0 with
    | zero => exact ⟨[x0], [], rfl, rfl, .nil hx0, by simp⟩
    | succ N ih =>
      have e3 : np.dotMV (A.add (B.mul K)) x0 = .ok ((A.add (B.mul K)).mulVec x0) := if_pos (by simp [a2, hx0])
      obtain ⟨xs, u, h1, h2, h3, h4⟩ := ih ((A.add (B.mul K)).mulVec x0) (by simp [a1])
      refine ⟨x0 :: xs, K.mulVec x0 :: u, ?_, by simp [h2], h3.cons hx0 fun i _ => ?_, ?_⟩
      · rw [LinearSystem.closedLoopFrom]
        rw [e1, Py.ok_bind, e2, Py.ok_bind, e3, Py.ok_bind, h1]
        rfl
      · simp only [Spec.affine, Mat.mulVec_e, Mat.add_nc, Mat.add_e, add_mul, Finset.sum_add_distrib, a2]
        rw [show (Vec.zeros nx : Vec ℝ).e i = 0 from rfl, add_zero]
        congr 1
        have := rowVal_mul (A := B) (B := K) (by omega) i x0.e
        unfold rowVal at this
        rw [Mat.mul_nc, k2] at this
        rw [this]
        simp only [k2]
      · intro t x v hx hv
        cases t with
        | zero =>
          simp only [List.getElem?_cons_zero, Option.some.injEq] at hx hv
          subst hx hv
          exact ⟨k1, fun s _ => rfl⟩
        | succ t =>
          simp only [List.getElem?_cons_succ] at hx hv
          exact h4 t x v hx hv

/-- two steps of the scalar system `x⁺ = 2 x + u + 1` from 1 with inputs 0, -1: the states are 1, 3, 6 -/
example : ∃ xs, (⟨⟨1, 1, fun _ _ => 2⟩, ⟨1, 1, fun _ _ => 1⟩, ⟨1, fun _ => 1⟩, 1, 1⟩ : AffineSystem).simulate ⟨1, fun _ => 1⟩
    [⟨1, fun _ => 0⟩, ⟨1, fun _ => -1⟩] = .ok xs ∧ (xs.map fun x => x.e 0) = [1, 3, 6] := by
  refine ⟨_, rfl, ?_⟩
  simp [Mat.mulVec, Vec.add]
  norm_num

/-- C51: for every mode sequence of length `N ≥ 1`, the condensed matrices give the stacked trajectory;
the empty sequence raises `ValueError`. -/
theorem C51 (systems : List AffineSystem) (modes : List ℕ) (S0 : AffineSystem) (h0 : systems[0]? = some S0)
    (hshape : ∀ S ∈ systems, Spec.SystemShape S0.nx S0.nu S.A S.B S.c) (hmodes : ∀ m ∈ modes, m < systems.length) :
    (modes = [] → condense_pwa_system systems modes = .error .valueError) ∧
    (modes ≠ [] → ∃ A_bar B_bar c_bar, condense_pwa_system systems modes = .ok (A_bar, B_bar, c_bar) ∧
      A_bar.nr = S0.nx * (modes.length + 1) ∧ A_bar.nc = S0.nx ∧
      B_bar.nr = S0.nx * (modes.length + 1) ∧ B_bar.nc = S0.nu * modes.length ∧ c_bar.n = S0.nx * (modes.length + 1) ∧
      ∀ (x0 : Vec ℝ) (u xs : List (Vec ℝ)), u.length = modes.length →
        IsTrajectory S0.nx (fun t => (systems.getD (modes.getD t 0) S0).A) (fun t => (systems.getD (modes.getD t 0) S0).B)
          (fun t => (systems.getD (modes.getD t 0) S0).c) x0 u xs →
        ∀ ubar : ℕ → ℝ, (∀ t v, u[t]? = some v → ∀ s < S0.nu, ubar (S0.nu * t + s) = v.e s) →
        ∀ t x, xs[t]? = some x → ∀ i < S0.nx,
          rowVal A_bar (S0.nx * t + i) x0.e + rowVal B_bar (S0.nx * t + i) ubar + c_bar.e (S0.nx * t + i) = x.e i) := by
  constructor
  · rintro rfl
    unfold condense_pwa_system
    rw [show np.listGet systems 0 = .ok S0 by unfold np.listGet; rw [h0]]
    rfl
  · intro hne
    obtain ⟨A_bar, B_bar, c_bar, h1, h2, h3, h4, h5, h6, h7⟩ := condense_ok h0 hshape hmodes hne
    refine ⟨A_bar, B_bar, c_bar, h1, h2, h3, h4, h5, h6, fun x0 u xs hu hxs ubar hub t x hx i hi => ?_⟩
    have hsys : ∀ t < modes.length, systems.getD (modes.getD t 0) S0 ∈ systems := fun t ht =>
      getD_mem _ (hmodes _ (getD_mem _ ht))
    have hlt : t < xs.length := (List.getElem?_eq_some_iff.1 hx).1
    have hlen := hxs.1
    rw [h7 x0.e (fun t s => ubar (S0.nu * t + s)) ubar (fun _ _ _ _ => rfl) t (by omega) i hi]
    exact (hxs.traj (nu := S0.nu) (fun t ht => (hshape _ (hsys t (by omega))).2.1)
      (fun t ht => (hshape _ (hsys t (by omega))).2.2.2.1) (fun t s => ubar (S0.nu * t + s)) hub t x hx i hi).symm

theorem getD_const (S : AffineSystem) (k : ℕ) : [S].getD k S = S := by
  cases k <;> rfl

/-- C51, for `condense` of affine and linear systems -/
theorem C51_single (nx nu N : ℕ) (A B : Mat ℝ) (c : Vec ℝ) (hS : Spec.SystemShape nx nu A B c) (cached : Option Bool) :
    (N = 0 → (⟨A, B, c, nx, nu⟩ : AffineSystem).condense N = .error .valueError ∧
      (⟨A, B, nx, nu, cached⟩ : LinearSystem).condense N = .error .valueError) ∧
    (N ≠ 0 → ∃ A_bar B_bar c_bar, (⟨A, B, c, nx, nu⟩ : AffineSystem).condense N = .ok (A_bar, B_bar, c_bar) ∧
      A_bar.nr = nx * (N + 1) ∧ A_bar.nc = nx ∧ B_bar.nr = nx * (N + 1) ∧ B_bar.nc = nu * N ∧ c_bar.n = nx * (N + 1) ∧
      ∀ (x0 : Vec ℝ) (u xs : List (Vec ℝ)), u.length = N →
        IsTrajectory nx (fun _ => A) (fun _ => B) (fun _ => c) x0 u xs →
        ∀ ubar : ℕ → ℝ, (∀ t v, u[t]? = some v → ∀ s < nu, ubar (nu * t + s) = v.e s) →
        ∀ t x, xs[t]? = some x → ∀ i < nx,
          rowVal A_bar (nx * t + i) x0.e + rowVal B_bar (nx * t + i) ubar + c_bar.e (nx * t + i) = x.e i) ∧
    (N ≠ 0 → ∃ A_bar B_bar, (⟨A, B, nx, nu, cached⟩ : LinearSystem).condense N = .ok (A_bar, B_bar) ∧
      A_bar.nr = nx * (N + 1) ∧ A_bar.nc = nx ∧ B_bar.nr = nx * (N + 1) ∧ B_bar.nc = nu * N ∧
      ∀ (x0 : Vec ℝ) (u xs : List (Vec ℝ)), u.length = N →
        IsTrajectory nx (fun _ => A) (fun _ => B) (fun _ => Vec.zeros nx) x0 u xs →
        ∀ ubar : ℕ → ℝ, (∀ t v, u[t]? = some v → ∀ s < nu, ubar (nu * t + s) = v.e s) →
        ∀ t x, xs[t]? = some x → ∀ i < nx,
          rowVal A_bar (nx * t + i) x0.e + rowVal B_bar (nx * t + i) ubar = x.e i) := by
  have key : ∀ c : Vec ℝ, Spec.SystemShape nx nu A B c → _ := fun c hS =>
    C51 [⟨A, B, c, nx, nu⟩] (List.replicate N 0) ⟨A, B, c, nx, nu⟩ rfl
      (fun S hS' => by rw [List.mem_singleton.1 hS']; exact hS)
      (fun m hm => by rw [List.eq_of_mem_replicate hm]; simp)
  have hz : Spec.SystemShape nx nu A B (Vec.zeros nx) := ⟨hS.1, hS.2.1, hS.2.2.1, hS.2.2.2.1, rfl⟩
  have hinit : AffineSystem.init A B (.d1 (Vec.zeros A.nr)) = .ok ⟨A, B, Vec.zeros nx, nx, nu⟩ := by
    unfold AffineSystem.init
    rw [check_ok' (nx := nx) (nu := nu) (c := Vec.zeros A.nr) (by rw [hS.1]; exact hz), Py.ok_bind, hS.1, hS.2.2.1, hS.2.2.2.1]
    rfl
  refine ⟨?_, ?_, ?_⟩
  · rintro rfl
    refine ⟨(key c hS).1 rfl, ?_⟩
    unfold LinearSystem.condense
    simp only [hinit]
    rw [Py.ok_bind, (key _ hz).1 rfl]
    rfl
  · intro hN
    obtain ⟨A_bar, B_bar, c_bar, h1, h2, h3, h4, h5, h6, h7⟩ := (key c hS).2 (by simpa using hN)
    simp only [List.length_replicate, getD_const] at h2 h4 h5 h6 h7
    exact ⟨A_bar, B_bar, c_bar, h1, h2, h3, h4, h5, h6, h7⟩
  · intro hN
    obtain ⟨A_bar, B_bar, c_bar, h1, h2, h3, h4, h5, h6, h7⟩ := (key _ hz).2 (by simpa using hN)
    simp only [List.length_replicate, getD_const] at h2 h4 h5 h6 h7
    have hc : ∀ t ≤ N, ∀ i < nx, c_bar.e (nx * t + i) = 0 := by
      intro t ht i hi
      obtain ⟨xs, g1, g2⟩ := (((C50 nx nu A B (Vec.zeros nx) hz (Vec.zeros nx) rfl none).1 (List.replicate N (Vec.zeros nu))
        (fun v hv => by rw [List.eq_of_mem_replicate hv]; rfl)).1)
      have hlen := g2.1
      rw [List.length_replicate] at hlen
      have hx : xs[t]? = some xs[t] := List.getElem?_eq_getElem (by omega)
      have := h7 (Vec.zeros nx) (List.replicate N (Vec.zeros nu)) xs (by simp) g2 (fun _ => 0)
        (fun s v hv _ _ => by
          rw [List.eq_of_mem_replicate (List.mem_of_getElem? hv)]; rfl) t _ hx i hi
      have hzero : ∀ (s : ℕ) (x : Vec ℝ), xs[s]? = some x → ∀ i < nx, x.e i = 0 := by
        intro s
        induction s with
        | zero => intro x hx i _; rw [g2.2.1] at hx; cases hx; rfl
        | succ s ih =>
          intro y hy i hi
          have hlt : s + 1 < xs.length := (List.getElem?_eq_some_iff.1 hy).1
          have hx : xs[s]? = some xs[s] := List.getElem?_eq_getElem (by omega)
          rw [g2.2.2.2 s _ y (Vec.zeros nu) hx hy (by rw [List.getElem?_replicate, if_pos (by omega)]) i hi]
          simp only [Spec.affine]
          rw [Finset.sum_eq_zero, Finset.sum_eq_zero]
          · simp
          · intro j _; simp
          · intro j hj
            have := mem_range.1 hj
            rw [ih _ hx j (by rw [hS.2.1] at this; exact this), mul_zero]
      rw [hzero t _ hx i hi] at this
      simpa [rowVal] using this
    refine ⟨A_bar, B_bar, ?_, h2, h3, h4, h5, fun x0 u xs hu hxs ubar hub t x hx i hi => ?_⟩
    · unfold LinearSystem.condense
      simp only [hinit]
      rw [Py.ok_bind, h1]
      rfl
    · have hlt : t < xs.length := (List.getElem?_eq_some_iff.1 hx).1
      have hlen := hxs.1
      have := h7 x0 u xs hu hxs ubar hub t x hx i hi
      rwa [hc t (by omega) i hi, add_zero] at this

/-- a system with two modes and the mode sequence 0, 1: `x(2) = 3 (2 x0 + u0 + 1) - u1` -/
example (x0 u0 u1 : ℝ) :
    let S : List AffineSystem := [⟨⟨1, 1, fun _ _ => 2⟩, ⟨1, 1, fun _ _ => 1⟩, ⟨1, fun _ => 1⟩, 1, 1⟩,
      ⟨⟨1, 1, fun _ _ => 3⟩, ⟨1, 1, fun _ _ => -1⟩, ⟨1, fun _ => 0⟩, 1, 1⟩]
    ∃ A_bar B_bar c_bar, condense_pwa_system S [0, 1] = .ok (A_bar, B_bar, c_bar) ∧
      rowVal A_bar 2 (fun _ => x0) + rowVal B_bar 2 (fun t => if t = 0 then u0 else u1) + c_bar.e 2
        = 3 * (2 * x0 + u0 + 1) - u1 := by
  intro S
  obtain ⟨A_bar, B_bar, c_bar, h1, -, -, -, -, -, h7⟩ := (C51 S [0, 1] _ rfl
    (by intro T hT; simp [S] at hT; rcases hT with rfl | rfl <;> exact ⟨rfl, rfl, rfl, rfl, rfl⟩)
    (by simp [S])).2 (by simp)
  refine ⟨A_bar, B_bar, c_bar, h1, ?_⟩
  have := h7 ⟨1, fun _ => x0⟩ [⟨1, fun _ => u0⟩, ⟨1, fun _ => u1⟩]
    [⟨1, fun _ => x0⟩, ⟨1, fun _ => 2 * x0 + u0 + 1⟩, ⟨1, fun _ => 3 * (2 * x0 + u0 + 1) - u1⟩] rfl
    ⟨rfl, rfl, by simp [S], by
      intro t x y v hx hy hv i hi
      rcases t with _ | _ | _ | t
      · simp at hx hy hv; subst hx hy hv; simp [S, Spec.affine]
      · simp at hx hy hv; subst hx hy hv; simp [S, Spec.affine]; ring
      · simp at hy
      · simp at hv⟩ (fun t => if t = 0 then u0 else u1) (by
      intro t v hv s hs
      have hs : s < 1 := hs
      obtain rfl : s = 0 := by omega
      rcases t with _ | _ | t
      · simp at hv; subst hv; simp
      · simp at hv; subst hv; simp [S]
      · simp at hv) 2 _ rfl 0 (by show 0 < 1; omega)
  simpa using this

end Verif.Props
