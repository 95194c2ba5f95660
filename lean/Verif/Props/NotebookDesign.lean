import Verif.Props.Notebooks
import Verif.Props.HybridDesign
import Verif.Props.Riccati
import Mathlib.Tactic.LinearCombination
import Mathlib.Tactic.FieldSimp

/- The controllers designed in the hybrid notebooks: C131 of properties.jsonl. -/
namespace Verif.Props
open Finset Spec Dyn Control Notebook Filter Topology

/-- what the closed loop of the controller `c` and the system `S` guarantees, at states and inputs that meet `Ok`: from each state of the terminal set the
controller answers with a value of at most `1/2 x P x`; if it answers at the first state, it answers at all the later ones and the system can be simulated; the
loop stays in the domains; the value decreases by at least the stage cost; and every neighbourhood of the origin is reached after a number of steps that depends
only on a bound on the first value.  For programs without tiny entries (see C73). -/
structure Stabilises (G : Gurobi) (c : HMPC) (S : PWA) (Q R P : Mat ℝ) (X_N : Poly) (Ok : Vec ℝ → Vec ℝ → Prop) : Prop where
  terminal : ∀ x : Vec ℝ, x.n = S.nx → X_N.Mem x.e → MiNoTiny c.mpmiqp x.e → ∃ a, c.feedforward G x = .ok (some a) ∧ a.V ≤ 1 / 2 * quad P x.e
  goesOn : ∀ (x u : ℕ → Vec ℝ) (T : ℕ), HybridLoop G c S x u T → (∀ t ≤ T, MiNoTiny c.mpmiqp (x t).e) → (∀ t < T, Ok (x t) (u t)) →
    (∃ a, c.feedforward G (x 0) = .ok (some a)) →
    ∀ t ≤ T, ∃ a v y m, c.feedforward G (x t) = .ok (some a) ∧ c.feedback G (x t) = .ok (some v) ∧ S.simulate (x t) [v] = .ok ([x t, y], [m])
  inside : ∀ (x u : ℕ → Vec ℝ) (T : ℕ), HybridLoop G c S x u T → (∀ t ≤ T, MiNoTiny c.mpmiqp (x t).e) → (∀ t < T, Ok (x t) (u t)) →
    (∃ a, c.feedforward G (x 0) = .ok (some a)) → ∀ t < T, ∃ D ∈ S.domains, D.Mem (pair S.nx (x t).e (u t).e)
  decreases : ∀ (x u : ℕ → Vec ℝ) (T : ℕ), HybridLoop G c S x u T → (∀ t ≤ T, MiNoTiny c.mpmiqp (x t).e) → (∀ t < T, Ok (x t) (u t)) →
    (∃ a, c.feedforward G (x 0) = .ok (some a)) → ∀ t < T, ∀ a a', c.feedforward G (x t) = .ok (some a) → c.feedforward G (x (t + 1)) = .ok (some a') →
      a'.V + 1 / 2 * (quad Q (x t).e + quad R (u t).e) ≤ a.V
  converges : ∀ ε > 0, ∀ V, ∃ T, ∀ x u : ℕ → Vec ℝ, HybridLoop G c S x u T → (∀ t ≤ T, MiNoTiny c.mpmiqp (x t).e) → (∀ t < T, Ok (x t) (u t)) →
    (∃ a, c.feedforward G (x 0) = .ok (some a) ∧ a.V ≤ V) → ∃ t < T, ∀ k < S.nx, |(x t).e k| ≤ ε

/-- the states of `X_N` stay in it with `u = K x`, within the domain `D` -/
def Invariant (S1 : LinearSystem) (K : Mat ℝ) (D X_N : Poly) : Prop :=
  ∀ x : ℕ → ℝ, X_N.Mem x → D.Mem (pair S1.nx x fun s => rowVal K s x) ∧ X_N.Mem (Spec.affine S1.A S1.B (Vec.zeros S1.nx) x fun s => rowVal K s x)

/-- the design of the notebooks -/
theorem design_ok (L : Lib) (hL : LibSpec L) (G : Gurobi) (hG : GurobiSpec G) (systems : List Sys) (domains : List Poly) (hs : ∀ T ∈ systems, SysOk T)
    (S : PWA) (hS : PWA.init systems domains = .ok S) (hdom : ∀ D ∈ domains, DomOk (S.nx + S.nu) D)
    (i : ℕ) (S1 : LinearSystem) (D : Poly) (hi : systems[i]? = some (.lin S1)) (hDi : domains[i]? = some D) (hin : OriginInside (S.nx + S.nu) D)
    (hfresh : S1._controllable = none) (hnx : 0 < S1.nx) (hnu : 0 < S1.nu) (hst : Steerable S1.nx S1.A S1.B S1.nx)
    (dare : Mat ℝ → Mat ℝ → Mat ℝ → Mat ℝ → Py (Mat ℝ)) (P : Mat ℝ) (hP : dare S1.A S1.B (Mat.eye S.nx) (Mat.eye S.nu) = .ok P)
    (hdare : DareSpec S1.nx S1.nu S1.A S1.B (Mat.eye S.nx) (Mat.eye S.nu) P) (N : ℕ) (hN : 0 < N)
    (Ok : Vec ℝ → Vec ℝ → Prop) (hOk : ∀ x u : Vec ℝ, x.n = S.nx → u.n = S.nu → Ok x u → ModesAgree S x u) :
    ∃ K T0 X_N c, (∀ fuel ≥ T0, hybridDesign L dare S1 D S N fuel = .ok (some (P, K, X_N, c))) ∧
      (Invariant S1 K D X_N → Stabilises G c S (Mat.eye S.nx) (Mat.eye S.nu) P X_N Ok) := by
  have hsys : SystemShape S1.nx S1.nu S1.A S1.B (Vec.zeros S1.nx) := hs _ (List.mem_of_getElem? hi)
  obtain ⟨hsh, hok, hg, hdm⟩ := pwa_of_init hs hS hdom
  obtain ⟨-, -, c3⟩ := C58 systems domains hs
  obtain ⟨p1, p2, p3, p4, p5, p6, p7⟩ := c3 S hS
  obtain ⟨enx, enu⟩ : S1.nx = S.nx ∧ S1.nu = S.nu := p1 (.lin S1) (List.mem_of_getElem? hi)
  have hargs : DareArgs S1 (Mat.eye S.nx) (Mat.eye S.nu) := ⟨hsys, hfresh, hnx, enx ▸ eye_sym _, enu ▸ eye_sym _, enx ▸ eye_pos _, enu ▸ eye_pos _⟩
  have hspec : ∀ P', dare S1.A S1.B (Mat.eye S.nx) (Mat.eye S.nu) = .ok P' → DareSpec S1.nx S1.nu S1.A S1.B (Mat.eye S.nx) (Mat.eye S.nu) P' := by
    intro P' h'
    rw [hP] at h'
    exact Except.ok.inj h' ▸ hdare
  have hS1 : (⟨S1.A, S1.B, S1.nx, S1.nu, none⟩ : LinearSystem) = S1 := by rw [← hfresh]
  obtain ⟨K, hK, -, -, -⟩ := (C53 S1.nx S1.nu S1.A S1.B (Mat.eye S.nx) (Mat.eye S.nu) hsys.1 hsys.2.1 hsys.2.2.1 hsys.2.2.2.1 hnx hnu hargs.symR hargs.Rpos
    dare ⟨hargs.symQ.1, hargs.symQ.2.1⟩ hspec).2.2 hst P hP
  rw [hS1] at hK
  obtain ⟨T0, X_N, c, t1, t2, t3⟩ := C118 L hL G hG systems domains hs S hS hdom i S1 D hi hDi hin _ _ P K hargs dare hspec hK N hN
  refine ⟨K, T0, X_N, c, fun fuel hf => ?_, fun hinv => ?_⟩
  · unfold hybridDesign
    rw [hK, Py.ok_bind]
    show (LinearSystem.mcais L S1 K D fuel >>= _) = _
    rw [t1 fuel hf, Py.ok_bind]
    show (HMPC.init L S N _ _ P X_N >>= _) = _
    rw [t2, Py.ok_bind]
    rfl
  · have hD := hdom D (List.mem_of_getElem? hDi)
    have horg : D.Mem fun _ => 0 := by
      obtain ⟨ε, hε, hm⟩ := hin
      exact hm _ fun j _ => by simp [hε.le]
    obtain ⟨hPs, k1, k2, -⟩ := solve_dare_ok hargs hspec hK
    obtain ⟨hsz, hXC, -⟩ := terminalInvariant_of_mcais L hL S1 hnx K D hsys ⟨k1, k2⟩ (by rw [enx, enu]; exact hD.inv) hD.noEq horg
      (by rw [enx, enu]; exact hD.bounded) T0 X_N (t1 T0 le_rfl) N (Mat.eye S.nx) (Mat.eye S.nu) P
    have hw : Weights S.nx S.nu (Mat.eye S.nx) (Mat.eye S.nu) P := by
      have := weights_of_dare hargs hPs
      rwa [enx, enu] at this
    have hha : HybArgs S N (Mat.eye S.nx) (Mat.eye S.nu) P X_N := ⟨hsh, hN, hw.symQ, hw.symP, ⟨hw.symR.1, hw.symR.2.1⟩, ⟨hsz.1.trans enx, hsz.2⟩⟩
    have hno : (hyb S N (Mat.eye S.nx) (Mat.eye S.nu) P X_N).NoEq := ⟨fun j hj => (hdm j hj).noEq, hXC⟩
    have hnx' : 0 < S.nx := enx ▸ hnx
    obtain ⟨q1, q2, q3⟩ := t3 (by
      intro x hx
      obtain ⟨i1, i2⟩ := hinv x ((mem_noeq hXC _).2 hx)
      refine ⟨i1.1, ?_⟩
      have e : (problem S1 N (Mat.eye S.nx) (Mat.eye S.nu) P D X_N).next x (LinOcp.gain K x) =
          Spec.affine S1.A S1.B (Vec.zeros S1.nx) x fun s => rowVal K s x := by
        funext k
        rfl
      rw [e]
      exact i2.1)
    -- sizes along the loop
    have hsizes : ∀ (x u : ℕ → Vec ℝ) (T : ℕ), HybridLoop G c S x u T → (∀ t ≤ T, MiNoTiny c.mpmiqp (x t).e) →
        ∀ t ≤ T, (x t).n = S.nx ∧ (t < T → (u t).n = S.nu) := by
      intro x u T hl ht t
      have hu : ∀ t < T, (x t).n = S.nx → (u t).n = S.nu := by
        intro t htT hx
        obtain ⟨a, -, hu, -⟩ := (hybrid_answer hL hG hha hw hnx' hg hno t2 hx (ht t htT.le)).1 _ (hl.2 t htT).1
        exact hu
      induction t with
      | zero => exact fun _ => ⟨hl.1, fun h0 => hu 0 h0 hl.1⟩
      | succ t ih =>
        intro htT
        obtain ⟨i1, i2⟩ := ih (by omega)
        obtain ⟨m, hm⟩ := (hl.2 t (by omega)).2
        have := (simulate_one hok i1 (i2 (by omega)) hm).2.1
        exact ⟨this, fun h1 => hu _ h1 this⟩
    have hagr : ∀ (x u : ℕ → Vec ℝ) (T : ℕ), HybridLoop G c S x u T → (∀ t ≤ T, MiNoTiny c.mpmiqp (x t).e) → (∀ t < T, Ok (x t) (u t)) →
        ∀ t < T, ModesAgree S (x t) (u t) := by
      intro x u T hl ht hk t htT
      obtain ⟨n1, n2⟩ := hsizes x u T hl ht t htT.le
      exact hOk _ _ n1 (n2 htT) (hk t htT)
    have hfeas : ∀ x : Vec ℝ, x.n = S.nx → MiNoTiny c.mpmiqp x.e → (∃ a, c.feedforward G x = .ok (some a)) →
        ∃ m v, (hyb S N (Mat.eye S.nx) (Mat.eye S.nu) P X_N).Feas x.e m v := by
      rintro x hx ht ⟨a, ha⟩
      obtain ⟨o, o1, -, o3⟩ := C73_partial L hL G hG S N _ _ P X_N hha hw hnx' hg c t2 x hx ht
      rw [ha] at o1
      by_contra hnf
      push Not at hnf
      have := (o3 hno).1.2 hnf
      rw [this] at o1
      cases o1
    refine ⟨fun x hx hm ht => q1 x hx hm.1 ht, fun x u T hl ht hk ha => ?_, fun x u T hl ht hk ha t htT => ?_, fun x u T hl ht hk ha => ?_, fun ε hε V => ?_⟩
    · exact (q2 x u T hl ht (hagr x u T hl ht hk) (hfeas _ hl.1 (ht 0 (by omega)) ha)).1
    · obtain ⟨E, hE, hm⟩ := (q2 x u T hl ht (hagr x u T hl ht hk) (hfeas _ hl.1 (ht 0 (by omega)) ha)).2.1 t htT
      exact ⟨E, by rw [p3]; exact hE, hm⟩
    · exact (q2 x u T hl ht (hagr x u T hl ht hk) (hfeas _ hl.1 (ht 0 (by omega)) ha)).2.2
    · obtain ⟨T, hT⟩ := q3 ε hε V
      exact ⟨T, fun x u hl ht hk ha => hT x u hl ht (hagr x u T hl ht hk) ha⟩

/-- two steps of a pendulum with `x0⁺ = x0 + h x1`, `x1⁺ = x1 + h (a x0 + b u)` -/
theorem steer_two {nx : ℕ} {A B : Mat ℝ} {a b h : ℝ} (hb : b ≠ 0) (hh : h ≠ 0) (hnx : nx = 2)
    (hlaw : ∀ x u : ℕ → ℝ, ∀ i < 2, Spec.affine A B (Vec.zeros nx) x u i = x i + h * if i = 0 then x 1 else a * x 0 + b * u 0) :
    Steerable nx A B nx := by
  subst hnx
  intro x y
  let u0 : ℝ := ((y 0 - x 0 - 2 * h * x 1) / h ^ 2 - a * x 0) / b
  let x1 : ℝ := x 1 + h * (a * x 0 + b * u0)
  let u1 : ℝ := ((y 1 - x1) / h - a * (x 0 + h * x 1)) / b
  refine ⟨fun t _ => if t = 0 then u0 else u1, fun i hi => ?_⟩
  have e0 : Spec.traj (fun _ => A) (fun _ => B) (fun _ => Vec.zeros 2) x (fun t _ => if t = 0 then u0 else u1) 1 0 = x 0 + h * x 1 := hlaw _ _ 0 (by omega)
  have e1 : Spec.traj (fun _ => A) (fun _ => B) (fun _ => Vec.zeros 2) x (fun t _ => if t = 0 then u0 else u1) 1 1 = x1 := hlaw _ _ 1 (by omega)
  have e2 := hlaw (Spec.traj (fun _ => A) (fun _ => B) (fun _ => Vec.zeros 2) x (fun t _ => if t = 0 then u0 else u1) 1) (fun _ => u1) i hi
  refine e2.trans ?_
  interval_cases i
  · rw [if_pos rfl, e0, e1]
    simp only [x1, u0]
    field_simp
    ring
  · rw [if_neg (by omega), e0, e1]
    simp only [u1]
    field_simp
    ring

/-- four steps of a cart-pole -/
theorem steer_four {nx : ℕ} {A B : Mat ℝ} {α β b1 b2 h : ℝ} (hb : b2 ≠ 0) (hd : b1 * β - α * b2 ≠ 0) (hh : h ≠ 0) (hnx : nx = 4)
    (hlaw : ∀ x u : ℕ → ℝ, ∀ i < 4, Spec.affine A B (Vec.zeros nx) x u i =
      x i + h * if i = 0 then x 2 else if i = 1 then x 3 else if i = 2 then α * x 1 + b1 * u 0 else β * x 1 + b2 * u 0) :
    Steerable nx A B nx := by
  subst hnx
  intro x y
  -- `b2 p - b1 θ` is driven by the angle, the angle by the input
  let q0 : ℝ := b2 * x 0 - b1 * x 1
  let r0 : ℝ := b2 * x 2 - b1 * x 3
  let δ : ℝ := b1 * β - α * b2
  let e0 : ℝ := ((q0 + 4 * h * r0 - (b2 * y 0 - b1 * y 1)) / (h ^ 2 * δ) - 6 * x 1 - 4 * h * x 3) / h ^ 2
  let e1 : ℝ := ((r0 - (b2 * y 2 - b1 * y 3)) / (h * δ) - 4 * x 1 - 6 * h * x 3) / h ^ 2 - 3 * e0
  let e2 : ℝ := (y 1 - x 1 - 4 * h * x 3) / h ^ 2 - 3 * e0 - 2 * e1
  let e3 : ℝ := (y 3 - x 3) / h - e0 - e1 - e2
  have f0 : q0 + 4 * h * r0 - h ^ 2 * δ * (6 * x 1 + 4 * h * x 3 + h ^ 2 * e0) = b2 * y 0 - b1 * y 1 := by
    have : δ ≠ 0 := hd
    simp only [e0]
    field_simp
    ring
  have f1 : r0 - h * δ * (4 * x 1 + 6 * h * x 3 + h ^ 2 * (3 * e0 + e1)) = b2 * y 2 - b1 * y 3 := by
    have : δ ≠ 0 := hd
    simp only [e1]
    field_simp
    ring
  have f2 : x 1 + 4 * h * x 3 + h ^ 2 * (3 * e0 + 2 * e1 + e2) = y 1 := by
    simp only [e2]
    field_simp
    ring
  have f3 : x 3 + h * (e0 + e1 + e2 + e3) = y 3 := by
    simp only [e3]
    field_simp
    ring
  clear_value e0 e1 e2 e3
  let u0 : ℝ := (e0 - β * x 1) / b2
  let u1 : ℝ := (e1 - β * (x 1 + h * x 3)) / b2
  let u2 : ℝ := (e2 - β * (x 1 + 2 * h * x 3 + h ^ 2 * e0)) / b2
  let u3 : ℝ := (e3 - β * (x 1 + 3 * h * x 3 + h ^ 2 * (2 * e0 + e1))) / b2
  have g0 : b2 * u0 = e0 - β * x 1 := by simp only [u0]; field_simp
  have g1 : b2 * u1 = e1 - β * (x 1 + h * x 3) := by simp only [u1]; field_simp
  have g2 : b2 * u2 = e2 - β * (x 1 + 2 * h * x 3 + h ^ 2 * e0) := by simp only [u2]; field_simp
  have g3 : b2 * u3 = e3 - β * (x 1 + 3 * h * x 3 + h ^ 2 * (2 * e0 + e1)) := by simp only [u3]; field_simp
  clear_value u0 u1 u2 u3
  let u : ℕ → ℕ → ℝ := fun t _ => if t = 0 then u0 else if t = 1 then u1 else if t = 2 then u2 else u3
  let X := Spec.traj (fun _ => A) (fun _ => B) (fun _ => Vec.zeros 4) x u
  have s0 : ∀ t, X (t + 1) 0 = X t 0 + h * X t 2 := fun t => hlaw (X t) (u t) 0 (by omega)
  have s1 : ∀ t, X (t + 1) 1 = X t 1 + h * X t 3 := fun t => hlaw (X t) (u t) 1 (by omega)
  have s2 : ∀ t, X (t + 1) 2 = X t 2 + h * (α * X t 1 + b1 * u t 0) := fun t => hlaw (X t) (u t) 2 (by omega)
  have s3 : ∀ t, X (t + 1) 3 = X t 3 + h * (β * X t 1 + b2 * u t 0) := fun t => hlaw (X t) (u t) 3 (by omega)
  have hX : ∀ i, X 0 i = x i := fun i => rfl
  have v0 : u 0 0 = u0 := rfl
  have v1 : u 1 0 = u1 := rfl
  have v2 : u 2 0 = u2 := rfl
  have v3 : u 3 0 = u3 := rfl
  have a10 := s0 0
  have a11 := s1 0
  have a12 := s2 0
  have a13 := s3 0
  have a20 := s0 1
  have a21 := s1 1
  have a22 := s2 1
  have a23 := s3 1
  have a30 := s0 2
  have a31 := s1 2
  have a32 := s2 2
  have a33 := s3 2
  have a40 := s0 3
  have a41 := s1 3
  have a42 := s2 3
  have a43 := s3 3
  simp only [hX, v0, v1, v2, v3, Nat.zero_add, Nat.reduceAdd] at a10 a11 a12 a13 a20 a21 a22 a23 a30 a31 a32 a33 a40 a41 a42 a43
  -- angles
  rw [g0] at a13
  have t2 : X 2 1 = x 1 + 2 * h * x 3 + h ^ 2 * e0 := by rw [a21, a11, a13]; ring
  have w2 : X 2 3 = x 3 + h * (e0 + e1) := by rw [a23, a11, a13, g1]; ring
  have t3 : X 3 1 = x 1 + 3 * h * x 3 + h ^ 2 * (2 * e0 + e1) := by rw [a31, t2, w2]; ring
  have w3 : X 3 3 = x 3 + h * (e0 + e1 + e2) := by rw [a33, t2, w2, g2]; ring
  have t4 : X 4 1 = y 1 := by rw [← f2, a41, t3, w3]; ring
  have w4 : X 4 3 = y 3 := by rw [← f3, a43, t3, w3, g3]; ring
  -- positions
  have r1 : b2 * X 1 2 - b1 * X 1 3 = r0 - h * δ * x 1 := by
    simp only [r0, δ]
    linear_combination b2 * a12 - b1 * a13 + b1 * h * g0
  have r2 : b2 * X 2 2 - b1 * X 2 3 = r0 - h * δ * (2 * x 1 + h * x 3) := by
    have := s3 1
    simp only [v1, Nat.reduceAdd] at this
    simp only [r0, δ] at r1 ⊢
    linear_combination b2 * a22 - b1 * this + r1 - h * (b1 * β - α * b2) * a11
  have r3 : b2 * X 3 2 - b1 * X 3 3 = r0 - h * δ * (3 * x 1 + 3 * h * x 3 + h ^ 2 * e0) := by
    have := s3 2
    simp only [v2, Nat.reduceAdd] at this
    simp only [r0, δ] at r2 ⊢
    linear_combination b2 * a32 - b1 * this + r2 - h * (b1 * β - α * b2) * t2
  have r4 : b2 * X 4 2 - b1 * X 4 3 = r0 - h * δ * (4 * x 1 + 6 * h * x 3 + h ^ 2 * (3 * e0 + e1)) := by
    have := s3 3
    simp only [v3, Nat.reduceAdd] at this
    simp only [r0, δ] at r3 ⊢
    linear_combination b2 * a42 - b1 * this + r3 - h * (b1 * β - α * b2) * t3
  have q4 : b2 * X 4 0 - b1 * X 4 1 = q0 + 4 * h * r0 - h ^ 2 * δ * (6 * x 1 + 4 * h * x 3 + h ^ 2 * e0) := by
    simp only [q0]
    linear_combination b2 * a40 - b1 * a41 + b2 * a30 - b1 * a31 + b2 * a20 - b1 * a21 + b2 * a10 - b1 * a11 + h * r3 + h * r2 + h * r1
  refine ⟨u, fun i hi => ?_⟩
  interval_cases i
  · refine mul_left_cancel₀ hb ?_
    show b2 * X 4 0 = _
    rw [f0, t4] at q4
    linear_combination q4
  · exact t4
  · refine mul_left_cancel₀ hb ?_
    show b2 * X 4 2 = _
    rw [f1, w4] at r4
    linear_combination r4
  · exact w4

/-- C131, the notebook `hybrid_mpc.ipynb`: for all positive masses, lengths, gaps and steps, the system without contact is
controllable and its Riccati equation has a solution; if scipy returns a solution `P`, the cells that design the controller run: the loop of `mcais`
stops and the controller is constructed.  If the terminal
set is invariant (C99 states when), the controller stabilises the pendulum, for states that are at the wall or more than the tolerance of `simulate` away
from it. -/
theorem C131_pendulum (L : Lib) (hL : LibSpec L) (G : Gurobi) (hG : GurobiSpec G) (m l g k d h : ℝ) (hm : 0 < m) (hl : 0 < l) (hd : 0 < d) (hh : 0 < h)
    (N : ℕ) (hN : 0 < N) :
    ∃ S1 D1 S, pendulum L m l g k d h = .ok (S1, D1, S) ∧ Steerable 2 S1.A S1.B 2 ∧ (∃ P, DareSpec 2 1 S1.A S1.B (Mat.eye 2) (Mat.eye 1) P) ∧
      ∀ dare P, dare S1.A S1.B (Mat.eye 2) (Mat.eye 1) = .ok P → DareSpec 2 1 S1.A S1.B (Mat.eye 2) (Mat.eye 1) P →
        ∃ K T0 X_N c, (∀ fuel ≥ T0, hybridDesign L dare S1 D1 S N fuel = .ok (some (P, K, X_N, c))) ∧
          (Invariant S1 K D1 X_N → Stabilises G c S (Mat.eye 2) (Mat.eye 1) P X_N fun x _ => l * x.e 0 = d ∨ l * 1e-7 < |l * x.e 0 - d|) := by
  obtain ⟨S1, D1, D2, S, h1, h2, h3, h4, h5, h6, S2, h7, h8⟩ := pendulum_built hL m l g k d hh.le
  have hdl : 0 < d / l := by positivity
  have e1 : -2 * d / l = -2 * (d / l) := by ring
  have e2 : 2 * d / l = 2 * (d / l) := by ring
  rw [e1] at h3
  rw [e2] at h4
  obtain ⟨n1, n2⟩ : S1.nx = 2 ∧ S1.nu = 1 := ⟨h2.2.1, h2.2.2.1⟩
  have hst : Steerable S1.nx S1.A S1.B S1.nx := steer_two (a := g / l) (b := 1 / (m * l ^ 2)) (h := h) (by positivity) hh.ne' n1 fun x u i hi => by
    have : Spec.affine S1.A S1.B (Vec.zeros S1.nx) x u i = pendulumLaw m l g k d h 0 x u i := h2.2.2.2 x u i hi
    rw [this]
    unfold pendulumLaw
    rw [if_pos rfl]
  obtain ⟨P0, hP0⟩ := dare_exists (S := S1) (Q := Mat.eye 2) (R := Mat.eye 1)
    ⟨h2.1, h6, by omega, n1 ▸ eye_sym _, n2 ▸ eye_sym _, n1 ▸ eye_pos _, n2 ▸ eye_pos _⟩ hst
  refine ⟨S1, D1, S, h1, by rw [n1] at hst; exact hst, ⟨P0, by rw [n1, n2] at hP0; exact hP0⟩, fun dare P hP hspec => ?_⟩
  have bnd : ∀ D a b, Dom 3 D (PendulumIn a b) → IsBounded 3 D.A D.b D.C D.d := fun D a b hD => by
    refine ⟨|a| + |b| + 4, fun z hz j hj => ?_⟩
    obtain ⟨⟨b1, b2⟩, ⟨b3, b4⟩, b5, b6⟩ := (hD.mem z).1 hz
    have := neg_abs_le a; have := le_abs_self b; have := abs_nonneg a; have := abs_nonneg b
    rw [abs_le]
    interval_cases j <;> constructor <;> linarith
  have hdom : ∀ D ∈ [D1, D2], DomOk (S.nx + S.nu) D := by
    rw [h5.nx, h5.nu]
    intro D hD
    rcases List.mem_cons.1 hD with rfl | hD
    · refine ⟨h3.inv, h3.rows, h3.noeq, ⟨fun _ => 0, (h3.mem _).2 ?_⟩, bnd _ _ _ h3⟩
      unfold PendulumIn
      norm_num
      exact hdl.le
    · obtain rfl := List.mem_singleton.1 hD
      refine ⟨h4.inv, h4.rows, h4.noeq, ⟨fun j => if j = 0 then d / l else 0, (h4.mem _).2 ?_⟩, bnd _ _ _ h4⟩
      unfold PendulumIn
      norm_num
      linarith
  have hdist : ∀ θ : ℝ, l * θ - d = l * (θ - d / l) := fun θ => by field_simp
  have key := design_ok L hL G hG [.lin S1, .aff S2] [D1, D2] (by
      intro T hT
      rcases List.mem_cons.1 hT with rfl | hT
      · exact h2.1
      · obtain rfl := List.mem_singleton.1 hT
        exact h7) S h8 hdom 0 S1 D1 rfl rfl (by
      rw [h5.nx, h5.nu]
      refine ⟨min (d / l) 1, by positivity, fun x hx => (h3.mem _).2 ?_⟩
      have b0 := abs_le.1 (hx 0 (by omega))
      have b1 := abs_le.1 (hx 1 (by omega))
      have b2 := abs_le.1 (hx 2 (by omega))
      have := min_le_left (d / l) 1
      have := min_le_right (d / l) 1
      refine ⟨⟨?_, ?_⟩, ⟨?_, ?_⟩, ?_, ?_⟩ <;> linarith) h6 (by omega) (by omega) hst dare P (by rw [h5.nx, h5.nu]; exact hP)
      (by rw [h5.nx, h5.nu, n1, n2]; exact hspec) N hN (fun x _ => l * x.e 0 = d ∨ l * 1e-7 < |l * x.e 0 - d|) (by
      intro x u hx hu hk i hi j hj hin hjn kk hkk
      rw [h5.nm] at hi hj
      rw [h5.nx] at hkk hx
      have z0 : (x.append u).e 0 = x.e 0 := Vec.append_e_lt _ _ (by omega)
      have hd0 : domAt S 0 = D1 := by show S.domains.getD 0 poly0 = _; rw [h5.domains]; rfl
      have hd1 : domAt S 1 = D2 := by show S.domains.getD 1 poly0 = _; rw [h5.domains]; rfl
      rw [h5.law i hi _ _ kk hkk, h5.law j hj _ _ kk hkk]
      have hk' : x.e 0 = d / l ∨ 1e-7 < |x.e 0 - d / l| := by
        rcases hk with hk | hk
        · left
          field_simp
          linarith
        · right
          rw [hdist, abs_mul, abs_of_pos hl] at hk
          exact lt_of_mul_lt_mul_left hk hl.le
      -- at the wall the two laws agree
      have same : x.e 0 = d / l → pendulumLaw m l g k d h 0 x.e u.e kk = pendulumLaw m l g k d h 1 x.e u.e kk := by
        intro h0
        unfold pendulumLaw
        rw [h0]
        refine congrArg (fun s => x.e kk + h * s) ?_
        by_cases hk0 : kk = 0
        · rw [if_pos hk0, if_pos hk0]
        · rw [if_neg hk0, if_neg hk0, if_pos rfl, if_neg (by omega)]
          field_simp
          ring
      rcases (show i = 0 ∨ i = 1 by have : i < 2 := hi; omega) with rfl | rfl <;>
        rcases (show j = 0 ∨ j = 1 by have : j < 2 := hj; omega) with rfl | rfl
      · rfl
      · rw [hd0, h3.tol] at hin
        rw [hd1] at hjn
        replace hjn := (h4.mem _).1 ((mem_noeq h4.noeq _).2 hjn)
        have a1 := hin.1.2
        have a2 := hjn.1.1
        rw [z0] at a1 a2
        refine same (hk'.resolve_right ?_)
        rw [not_lt, abs_le]
        constructor <;> linarith [show (0 : ℝ) < 1e-7 by norm_num]
      · rw [hd1, h4.tol] at hin
        rw [hd0] at hjn
        replace hjn := (h3.mem _).1 ((mem_noeq h3.noeq _).2 hjn)
        have a1 := hin.1.1
        have a2 := hjn.1.2
        rw [z0] at a1 a2
        refine (same (hk'.resolve_right ?_)).symm
        rw [not_lt, abs_le]
        constructor <;> linarith [show (0 : ℝ) < 1e-7 by norm_num]
      · rfl)
  rw [h5.nx, h5.nu] at key
  exact key

/-- C131, the notebook `hybrid_mpc_2.ipynb`: the same for the cart-pole between two walls, with gravity. -/
theorem C131_cart (L : Lib) (hL : LibSpec L) (G : Gurobi) (hG : GurobiSpec G) (mc mp l d k g h angle : ℝ) (hmc : 0 < mc) (hmp : 0 < mp) (hl : 0 < l)
    (hd : 0 < d) (hg : g ≠ 0) (hh : 0 < h) (hang : 0 < angle) (N : ℕ) (hN : 0 < N) :
    ∃ S2 D2 S, cartPole L mc mp l d k g h angle = .ok (S2, D2, S) ∧ Steerable 4 S2.A S2.B 4 ∧ (∃ P, DareSpec 4 1 S2.A S2.B (Mat.eye 4) (Mat.eye 1) P) ∧
      ∀ dare P, dare S2.A S2.B (Mat.eye 4) (Mat.eye 1) = .ok P → DareSpec 4 1 S2.A S2.B (Mat.eye 4) (Mat.eye 1) P →
        ∃ K T0 X_N c, (∀ fuel ≥ T0, hybridDesign L dare S2 D2 S N fuel = .ok (some (P, K, X_N, c))) ∧
          (Invariant S2 K D2 X_N → Stabilises G c S (Mat.eye 4) (Mat.eye 1) P X_N fun x _ =>
            (x.e 0 - l * x.e 1 = d ∨ 1e-7 < |x.e 0 - l * x.e 1 - d|) ∧ (x.e 0 - l * x.e 1 = -d ∨ 1e-7 < |x.e 0 - l * x.e 1 + d|)) := by
  obtain ⟨S2, D1, D2, D3, S, h1, h2, h3, h4, h5, h6, h7, S1, S3, h8, h9, h10⟩ := cart_built hL mc mp l d k g angle hh.le
  obtain ⟨n1, n2⟩ : S2.nx = 4 ∧ S2.nu = 1 := ⟨h2.2.1, h2.2.2.1⟩
  have hst : Steerable S2.nx S2.A S2.B S2.nx :=
    steer_four (α := g * mp / mc) (β := g * (mc + mp) / (l * mc)) (b1 := 1 / mc) (b2 := 1 / (l * mc)) (h := h) (by positivity) (by
      have : 1 / mc * (g * (mc + mp) / (l * mc)) - g * mp / mc * (1 / (l * mc)) = g / (l * mc) := by
        field_simp
        ring
      rw [this]
      positivity) hh.ne' n1 fun x u i hi => by
    have : Spec.affine S2.A S2.B (Vec.zeros S2.nx) x u i = cartLaw mc mp l d k g h 1 x u i := h2.2.2.2 x u i hi
    rw [this]
    unfold cartLaw
    rw [if_pos rfl]
  obtain ⟨P0, hP0⟩ := dare_exists (S := S2) (Q := Mat.eye 4) (R := Mat.eye 1)
    ⟨h2.1, h7, by omega, n1 ▸ eye_sym _, n2 ▸ eye_sym _, n1 ▸ eye_pos _, n2 ▸ eye_pos _⟩ hst
  refine ⟨S2, D2, S, h1, by rw [n1] at hst; exact hst, ⟨P0, by rw [n1, n2] at hP0; exact hP0⟩, fun dare P hP hspec => ?_⟩
  have bnd : ∀ (D : Poly) (T : ℝ → (ℕ → ℝ) → Prop), Dom 5 D (fun t z => CartBox d angle t z ∧ T t z) → IsBounded 5 D.A D.b D.C D.d := fun D T hD => by
    refine ⟨2 * d + angle + 100, fun z hz j hj => ?_⟩
    obtain ⟨⟨⟨b1, b2⟩, ⟨b3, b4⟩, ⟨b5, b6⟩, ⟨b7, b8⟩, b9, b10⟩, -⟩ := (hD.mem z).1 hz
    rw [abs_le]
    interval_cases j <;> constructor <;> linarith
  have hdom : ∀ D ∈ [D1, D2, D3], DomOk (S.nx + S.nu) D := by
    rw [h6.nx, h6.nu]
    intro D hD
    rcases List.mem_cons.1 hD with rfl | hD
    · exact ⟨h3.inv, h3.rows, h3.noeq, ⟨fun j => if j = 0 then -d else 0, (h3.mem _).2 ⟨by unfold CartBox; norm_num; exact ⟨⟨by linarith, by linarith⟩, hang.le⟩,
        by norm_num⟩⟩, bnd _ _ h3⟩
    rcases List.mem_cons.1 hD with rfl | hD
    · exact ⟨h4.inv, h4.rows, h4.noeq, ⟨fun _ => 0, (h4.mem _).2 ⟨by unfold CartBox; norm_num; exact ⟨hd.le, hang.le⟩, by norm_num; exact hd.le⟩⟩, bnd _ _ h4⟩
    · obtain rfl := List.mem_singleton.1 hD
      exact ⟨h5.inv, h5.rows, h5.noeq, ⟨fun j => if j = 0 then d else 0, (h5.mem _).2 ⟨by unfold CartBox; norm_num; exact ⟨⟨by linarith, by linarith⟩, hang.le⟩,
        by norm_num⟩⟩, bnd _ _ h5⟩
  have key := design_ok L hL G hG [.aff S1, .lin S2, .aff S3] [D1, D2, D3] (by
      intro T hT
      rcases List.mem_cons.1 hT with rfl | hT
      · exact h8
      rcases List.mem_cons.1 hT with rfl | hT
      · exact h2.1
      · obtain rfl := List.mem_singleton.1 hT
        exact h9) S h10 hdom 1 S2 D2 rfl rfl (by
      rw [h6.nx, h6.nu]
      refine ⟨min (d / (1 + l)) (min angle 1), by positivity, fun x hx => (h4.mem _).2 ?_⟩
      have b0 := abs_le.1 (hx 0 (by omega))
      have b1 := abs_le.1 (hx 1 (by omega))
      have b2 := abs_le.1 (hx 2 (by omega))
      have b3 := abs_le.1 (hx 3 (by omega))
      have b4 := abs_le.1 (hx 4 (by omega))
      have m1 := min_le_left (d / (1 + l)) (min angle 1)
      have m2 := (min_le_right (d / (1 + l)) (min angle 1)).trans (min_le_left _ _)
      have m3 := (min_le_right (d / (1 + l)) (min angle 1)).trans (min_le_right _ _)
      generalize min (d / (1 + l)) (min angle 1) = ε at *
      have m4 : ε + l * ε ≤ d := by
        rw [le_div_iff₀ (by linarith)] at m1
        linarith
      have m5 : 0 ≤ ε := by linarith [b0.1, b0.2]
      have m6 : 0 ≤ l * ε := by positivity
      have m7 : l * x 1 ≤ l * ε := mul_le_mul_of_nonneg_left b1.2 hl.le
      have m8 : l * -ε ≤ l * x 1 := mul_le_mul_of_nonneg_left b1.1 hl.le
      unfold CartBox
      refine ⟨⟨⟨?_, ?_⟩, ⟨?_, ?_⟩, ⟨?_, ?_⟩, ⟨?_, ?_⟩, ?_, ?_⟩, ?_, ?_⟩ <;> linarith) h7 (by omega) (by omega) hst dare P (by rw [h6.nx, h6.nu]; exact hP)
      (by rw [h6.nx, h6.nu, n1, n2]; exact hspec) N hN (fun x _ =>
            (x.e 0 - l * x.e 1 = d ∨ 1e-7 < |x.e 0 - l * x.e 1 - d|) ∧ (x.e 0 - l * x.e 1 = -d ∨ 1e-7 < |x.e 0 - l * x.e 1 + d|)) (by
      intro x u hx hu hk i hi j hj hin hjn kk hkk
      rw [h6.nm] at hi hj
      rw [h6.nx] at hkk hx
      have z0 : (x.append u).e 0 = x.e 0 := Vec.append_e_lt _ _ (by omega)
      have z1 : (x.append u).e 1 = x.e 1 := Vec.append_e_lt _ _ (by omega)
      have hd0 : domAt S 0 = D1 := by show S.domains.getD 0 poly0 = _; rw [h6.domains]; rfl
      have hd1 : domAt S 1 = D2 := by show S.domains.getD 1 poly0 = _; rw [h6.domains]; rfl
      have hd2 : domAt S 2 = D3 := by show S.domains.getD 2 poly0 = _; rw [h6.domains]; rfl
      rw [h6.law i hi _ _ kk hkk, h6.law j hj _ _ kk hkk]
      obtain ⟨hk1, hk2⟩ := hk
      -- at a wall the laws agree
      have same : ∀ md, (md = 0 ∧ x.e 0 - l * x.e 1 = -d ∨ md = 2 ∧ x.e 0 - l * x.e 1 = d) →
          cartLaw mc mp l d k g h md x.e u.e kk = cartLaw mc mp l d k g h 1 x.e u.e kk := by
        intro md hmd
        unfold cartLaw
        refine congrArg (fun s => x.e kk + h * s) ?_
        by_cases k0 : kk = 0
        · rw [if_pos k0, if_pos k0]
        by_cases k1 : kk = 1
        · rw [if_neg k0, if_neg k0, if_pos k1, if_pos k1]
        by_cases k2 : kk = 2
        · rw [if_neg k0, if_neg k0, if_neg k1, if_neg k1, if_pos k2, if_pos k2]
        rw [if_neg k0, if_neg k0, if_neg k1, if_neg k1, if_neg k2, if_neg k2, if_pos rfl]
        rcases hmd with ⟨rfl, hmd⟩ | ⟨rfl, hmd⟩
        · obtain h0 : x.e 0 = l * x.e 1 - d := by linarith
          rw [if_neg (by omega), if_pos rfl, h0]
          field_simp
          ring
        · obtain h0 : x.e 0 = l * x.e 1 + d := by linarith
          rw [if_neg (by omega), if_neg (by omega), h0]
          field_simp
          ring
      have tp : (0 : ℝ) < 1e-7 := by norm_num
      have i3 : i = 0 ∨ i = 1 ∨ i = 2 := by have : i < 3 := hi; omega
      have j3 : j = 0 ∨ j = 1 ∨ j = 2 := by have : j < 3 := hj; omega
      have near1 : |x.e 0 - l * x.e 1 - d| ≤ 1e-7 → x.e 0 - l * x.e 1 = d := fun h' => hk1.resolve_right (not_lt.2 h')
      have near2 : |x.e 0 - l * x.e 1 + d| ≤ 1e-7 → x.e 0 - l * x.e 1 = -d := fun h' => hk2.resolve_right (not_lt.2 h')
      rcases i3 with rfl | rfl | rfl <;> rcases j3 with rfl | rfl | rfl
      · rfl
      · rw [hd0, h3.tol, z0, z1] at hin
        rw [hd1] at hjn
        replace hjn := (h4.mem _).1 ((mem_noeq h4.noeq _).2 hjn)
        rw [z0, z1] at hjn
        have a1 := hin.2
        have a2 := hjn.2.1
        exact same 0 (.inl ⟨rfl, near2 (abs_le.2 ⟨by linarith, by linarith⟩)⟩)
      · rw [hd0, h3.tol, z0, z1] at hin
        rw [hd2] at hjn
        replace hjn := (h5.mem _).1 ((mem_noeq h5.noeq _).2 hjn)
        rw [z0, z1] at hjn
        have a1 := hin.2
        have a2 := hjn.2
        have := near1 (abs_le.2 ⟨by linarith, by linarith⟩)
        have := near2 (abs_le.2 ⟨by linarith, by linarith⟩)
        linarith
      · rw [hd1, h4.tol, z0, z1] at hin
        rw [hd0] at hjn
        replace hjn := (h3.mem _).1 ((mem_noeq h3.noeq _).2 hjn)
        rw [z0, z1] at hjn
        have a1 := hin.2.1
        have a2 := hjn.2
        exact (same 0 (.inl ⟨rfl, near2 (abs_le.2 ⟨by linarith, by linarith⟩)⟩)).symm
      · rfl
      · rw [hd1, h4.tol, z0, z1] at hin
        rw [hd2] at hjn
        replace hjn := (h5.mem _).1 ((mem_noeq h5.noeq _).2 hjn)
        rw [z0, z1] at hjn
        have a1 := hin.2.2
        have a2 := hjn.2
        exact (same 2 (.inr ⟨rfl, near1 (abs_le.2 ⟨by linarith, by linarith⟩)⟩)).symm
      · rw [hd2, h5.tol, z0, z1] at hin
        rw [hd0] at hjn
        replace hjn := (h3.mem _).1 ((mem_noeq h3.noeq _).2 hjn)
        rw [z0, z1] at hjn
        have a1 := hin.2
        have a2 := hjn.2
        have := near1 (abs_le.2 ⟨by linarith, by linarith⟩)
        have := near2 (abs_le.2 ⟨by linarith, by linarith⟩)
        linarith
      · rw [hd2, h5.tol, z0, z1] at hin
        rw [hd1] at hjn
        replace hjn := (h4.mem _).1 ((mem_noeq h4.noeq _).2 hjn)
        rw [z0, z1] at hjn
        have a1 := hin.2
        have a2 := hjn.2.2
        exact same 2 (.inr ⟨rfl, near1 (abs_le.2 ⟨by linarith, by linarith⟩)⟩)
      · rfl)
  rw [h6.nx, h6.nu] at key
  exact key

/-- the parameters of `hybrid_mpc.ipynb`: the controller with horizon 20 -/
example (L : Lib) (hL : LibSpec L) (G : Gurobi) (hG : GurobiSpec G) : ∃ S1 D1 S dare P K X_N c fuel, pendulum L 1 1 10 100 0.1 0.01 = .ok (S1, D1, S) ∧
    hybridDesign L dare S1 D1 S 20 fuel = .ok (some (P, K, X_N, c)) := by
  obtain ⟨S1, D1, S, h1, -, ⟨P, hP⟩, h2⟩ := C131_pendulum L hL G hG 1 1 10 100 0.1 0.01 (by norm_num) (by norm_num) (by norm_num) (by norm_num) 20 (by norm_num)
  obtain ⟨K, T0, X_N, c, h3, -⟩ := h2 (fun _ _ _ _ => .ok P) P rfl hP
  exact ⟨S1, D1, S, _, P, K, X_N, c, T0, h1, h3 T0 le_rfl⟩

/-- the parameters of `hybrid_mpc_2.ipynb` with the bound 0.5 on the angle: the controller with horizon 10 -/
example (L : Lib) (hL : LibSpec L) (G : Gurobi) (hG : GurobiSpec G) : ∃ S2 D2 S dare P K X_N c fuel, cartPole L 1 1 1 1 100 10 0.05 0.5 = .ok (S2, D2, S) ∧
    hybridDesign L dare S2 D2 S 10 fuel = .ok (some (P, K, X_N, c)) := by
  obtain ⟨S2, D2, S, h1, -, ⟨P, hP⟩, h2⟩ := C131_cart L hL G hG 1 1 1 1 100 10 0.05 0.5 (by norm_num) (by norm_num) (by norm_num) (by norm_num) (by norm_num)
    (by norm_num) (by norm_num) 10 (by norm_num)
  obtain ⟨K, T0, X_N, c, h3, -⟩ := h2 (fun _ _ _ _ => .ok P) P rfl hP
  exact ⟨S2, D2, S, _, P, K, X_N, c, T0, h1, h3 T0 le_rfl⟩

end Verif.Props
