import Verif.Model.Plant
import Verif.Props.Voronoi
import Verif.Props.Discretization
import Verif.Props.PwaSystem
import Verif.Props.PolyhedronSets
import Verif.Proofs.HybridBigM

/- Piecewise affine approximations of a plant. -/
namespace Verif.Props
open Finset Dyn Control
open Spec (sqDist Closest Distinct)
open Voronoi Plant

/-- `X` solves `dx/dt = F(x, w)` on `[0, h]` with the constant input `w` -/
def SolvesField {nx : ℕ} (F : (ℕ → ℝ) → (ℕ → ℝ) → Fin nx → ℝ) (w : ℕ → ℝ) (h : ℝ) (X : ℝ → ℕ → ℝ) : Prop :=
  ∀ t ∈ Set.Icc 0 h, ∀ i : Fin nx, HasDerivWithinAt (fun s => X s i) (F (X t) w i) (Set.Icc 0 h) t

/-- the affine system `S` is the discretization of the field `F` with step `h` -/
def Discretizes {nx : ℕ} (F : (ℕ → ℝ) → (ℕ → ℝ) → Fin nx → ℝ) (h : ℝ) : Method → AffineSystem → Prop
  | .zeroOrderHold, S => ∀ v w : ℕ → ℝ, (∃ X, SolvesField F w h X ∧ ∀ i < nx, X 0 i = v i) ∧
      ∀ X, SolvesField F w h X → (∀ i < nx, X 0 i = v i) → ∀ i < nx, X h i = Spec.affine S.A S.B S.c v w i
  | .explicitEuler, S => ∀ (v w : ℕ → ℝ) (i : Fin nx), Spec.affine S.A S.B S.c v w i = v i + h * F v w i
  | .other, _ => False

theorem systemAt_run {nx : ℕ} {f : Field nx} {T : Taylor} (hT : TaylorSpec f T) {p : Vec ℝ} (hp : p.n = nx) {J} (hJ : HasFDerivAt f J (fun k => p.e k, 0))
    {h : ℝ} (hh : 0 ≤ h) {method : Method} (hm : method ≠ .other) : ∃ S, systemAt T h method p = .ok S ∧ S.nx = nx ∧ S.nu = 1 ∧
      Spec.SystemShape nx 1 S.A S.B S.c ∧ Discretizes (linearized f J p.e) h method S := by
  obtain ⟨A, B, c, e1, hS, hv⟩ := hT.answers p hp J hJ
  have hsys : systemAt T h method p = AffineSystem.from_continuous A B (.d1 c) h method := by
    unfold systemAt
    rw [e1]
    rfl
  rw [hsys]
  have hode : ∀ w X, SolvesOde nx A B c w h X ↔ SolvesField (linearized f J p.e) w h X := fun w X => by
    constructor
    · intro k t ht i
      rw [← hv]
      exact k t ht i i.2
    · intro k t ht i hi
      have := k t ht ⟨i, hi⟩
      rw [← hv] at this
      exact this
  obtain ⟨⟨A1, B1, c1, a1, a2⟩, ⟨A2, B2, c2, b1, b2⟩, -⟩ := C83 nx 1 A B c h hS hh
  cases method with
  | zeroOrderHold =>
    obtain ⟨A', B', c', k1, k2, k3⟩ := (C49 nx 1 A B c hS).1 h hh
    rw [a1] at k1
    cases k1
    refine ⟨_, a2, rfl, rfl, k2, fun v w => ?_⟩
    obtain ⟨⟨X, h1, h2⟩, h3⟩ := k3 v w
    exact ⟨⟨X, (hode w X).1 h1, h2⟩, fun X hX => h3 X ((hode w X).2 hX)⟩
  | explicitEuler =>
    obtain ⟨A', B', c', k1, k2, k3⟩ := C48 nx 1 A B c h hS hh
    rw [b1] at k1
    cases k1
    refine ⟨_, b2, rfl, rfl, k2, fun v w i => ?_⟩
    rw [← hv]
    exact k3 v w i i.2
  | other => exact absurd rfl hm

/-- a strictly sorted list is determined by its elements -/
theorem sorted_unique {c : ℕ} {l l' : List (Vec ℝ)} (hp : l.Perm l') (h : l.Pairwise fun p q => p.e c < q.e c) (h' : l'.Pairwise fun p q => p.e c < q.e c) : l = l' :=
  hp.eq_of_pairwise (fun a b _ _ h1 h2 => absurd (lt_trans h1 h2) (lt_irrefl _)) h h'

/-- the run after the partition -/
theorem plant_run {V : Vor} {nx : ℕ} {f : Field nx} {T : Taylor} (hT : TaylorSpec f T) {points : List (Vec ℝ)} (hne : points ≠ [])
    (hn : ∀ p ∈ points, p.n = nx) {J : ℕ → (Fin nx → ℝ) × (Fin 1 → ℝ) →L[ℝ] (Fin nx → ℝ)}
    (hJ : ∀ i < points.length, HasFDerivAt f (J i) (fun k => (pt points i).e k, 0)) {X : Option Poly} {U : Poly} (hU : U.Inv 1) {h : ℝ} (hh : 0 ≤ h)
    {method : Method} (hm : method ≠ .other) {d0 : Poly} {points' : List (Vec ℝ)} {cells : List Poly} (hc : constrained_voronoi V points X = .ok cells)
    (hl : cells.length = points.length) (hI : ∀ c ∈ cells, c.Inv nx)
    (hm' : ∀ i < points.length, ∀ x, (cells.getD i d0).Mem x ↔ Closest nx points' i x ∧ InBounds nx X x) :
    ∃ S, pwa_from_RigidBodyPlant V T points X U h method = .ok S ∧
      S.nx = nx ∧ S.nu = 1 ∧ PwaShape S ∧ S.nm = points.length ∧
      ∀ i < points.length, (∀ z, (domAt S i).Mem z ↔ Closest nx points' i z ∧ InBounds nx X z ∧ U.Mem fun k => z (nx + k)) ∧
        Discretizes (linearized f (J i) (pt points i).e) h method (sysAt S i) := by
  obtain ⟨domains, hdom⟩ := Sympy.mapM_exists (f := fun Xi : Poly => Xi.cartesian_product U) (l := cells) fun c hc => (C14 nx 1 c U (hI c hc) hU).imp fun r hr => hr.1
  have hdom2 := Sympy.mapM_forall₂ hdom
  have hsys : ∀ p ∈ points, ∃ S, systemAt T h method p = .ok S ∧ S.nx = nx ∧ S.nu = 1 ∧ Spec.SystemShape nx 1 S.A S.B S.c := fun p hp => by
    obtain ⟨i, hi, rfl⟩ := List.getElem_of_mem hp
    have := hJ i hi
    have e : pt points i = points[i] := List.getD_eq_getElem _ _ hi
    rw [e] at this
    obtain ⟨S, a, b, c, d, -⟩ := systemAt_run hT (hn _ hp) this hh hm
    exact ⟨S, a, b, c, d⟩
  obtain ⟨systems, hsyst⟩ := Sympy.mapM_exists (f := systemAt T h method) (l := points) fun p hp => (hsys p hp).imp fun S hS => hS.1
  have hsys2 := Sympy.mapM_forall₂ hsyst
  have hdl : domains.length = points.length := hdom2.length_eq.symm.trans hl
  have hsl : systems.length = points.length := hsys2.length_eq.symm
  have hdget : ∀ i < points.length, ∃ r, domains.getD i poly0 = r ∧ r.Inv (nx + 1) ∧ ∀ z, r.Mem z ↔ (cells.getD i d0).Mem z ∧ U.Mem fun k => z (nx + k) := by
    intro i hi
    have := Sympy.forall₂_getD hdom2 d0 poly0 i (hl ▸ hi)
    obtain ⟨r, hr, h1, h2⟩ := C14 nx 1 (cells.getD i d0) U (hI _ (getD_mem _ (hl ▸ hi))) hU
    refine ⟨r, ?_, h1, h2⟩
    rw [hr] at this
    exact (Except.ok.inj this).symm
  have hsget : ∀ i < points.length, ∃ S, systems.getD i sys0 = S ∧ S.nx = nx ∧ S.nu = 1 ∧ Spec.SystemShape nx 1 S.A S.B S.c ∧
      Discretizes (linearized f (J i) (pt points i).e) h method S := by
    intro i hi
    have := Sympy.forall₂_getD hsys2 ⟨0, fun _ => 0⟩ sys0 i hi
    obtain ⟨S, h1, h2⟩ := systemAt_run hT (hn _ (pt_mem hi)) (hJ i hi) hh hm
    refine ⟨S, ?_, h2⟩
    have h3 : systemAt T h method (pt points i) = .ok (systems.getD i sys0) := this
    rw [h1] at h3
    exact (Except.ok.inj h3).symm
  have hsmem : ∀ S ∈ systems, S.nx = nx ∧ S.nu = 1 ∧ Spec.SystemShape nx 1 S.A S.B S.c := fun S hS => by
    obtain ⟨i, hi, rfl⟩ := List.getElem_of_mem hS
    obtain ⟨S, h1, h2, h3, h4, -⟩ := hsget i (hsl ▸ hi)
    rw [List.getD_eq_getElem _ _ hi] at h1
    rw [h1]
    exact ⟨h2, h3, h4⟩
  have hdmem : ∀ D ∈ domains, D.Inv (nx + 1) := fun D hD => by
    obtain ⟨i, hi, rfl⟩ := List.getElem_of_mem hD
    obtain ⟨r, h1, h2, -⟩ := hdget i (hdl ▸ hi)
    rw [List.getD_eq_getElem _ _ hi] at h1
    rw [h1]
    exact h2
  obtain ⟨k1, -, k3⟩ := C58 (systems.map .aff) domains (fun S hS => by
    obtain ⟨T', hT', rfl⟩ := List.mem_map.1 hS
    obtain ⟨a, b, c⟩ := hsmem T' hT'
    show Spec.SystemShape T'.nx T'.nu T'.A T'.B T'.c
    rw [a, b]
    exact c)
  obtain ⟨S, hS⟩ := k1.2 ⟨by
      intro h0
      have := congrArg List.length h0
      rw [List.length_map, hsl] at this
      exact hne (List.length_eq_zero_iff.1 this), by rw [List.length_map, hsl, hdl], nx, 1, fun S hS => by
      obtain ⟨T', hT', rfl⟩ := List.mem_map.1 hS
      exact ⟨(hsmem T' hT').1, (hsmem T' hT').2.1⟩, fun D hD => (hdmem D hD).1⟩
  obtain ⟨m1, m2, m3, m4, m5, m6, m7⟩ := k3 S hS
  have hlen0 : 0 < points.length := List.length_pos_iff.2 hne
  have hx : S.nx = nx ∧ S.nu = 1 := by
    have h0 : systems[0]'(hsl ▸ hlen0) ∈ systems := List.getElem_mem _
    have := m1 _ (List.mem_map.2 ⟨_, h0, rfl⟩)
    have h2 := hsmem _ h0
    exact ⟨this.1.symm.trans h2.1, this.2.symm.trans h2.2.1⟩
  have hnm : S.nm = points.length := m4.trans hdl
  have haff : ∀ i < points.length, sysAt S i = systems.getD i sys0 := fun i hi => by
    have hi' : i < systems.length := hsl ▸ hi
    have := (m7 i).1 systems[i] (by rw [List.getElem?_map, List.getElem?_eq_getElem hi']; rfl)
    show S.affine_systems.getD i sys0 = _
    rw [List.getD_eq_getElem?_getD, this, List.getD_eq_getElem _ _ hi']
    rfl
  refine ⟨S, ?_, hx.1, hx.2, ⟨m5, by rw [m3, m4], by omega, fun T hT => ?_, fun D hD => ?_⟩, hnm, fun i hi => ⟨fun z => ?_, ?_⟩⟩
  · unfold pwa_from_RigidBodyPlant
    rw [hc, Py.ok_bind, hdom, Py.ok_bind, hsyst, Py.ok_bind]
    exact hS
  · exact m6 T hT
  · rw [m3] at hD
    have := hdmem D hD
    rw [hx.1, hx.2]
    exact ⟨this.1, this.2.1⟩
  · obtain ⟨r, h1, -, h2⟩ := hdget i hi
    show (S.domains.getD i poly0).Mem z ↔ _
    rw [m3, h1, h2, hm' i hi z, and_assoc]
  · rw [haff i hi]
    obtain ⟨S', h1, -, -, -, h2⟩ := hsget i hi
    rw [h1]
    exact h2

/-- C95 (partial): the piecewise affine system for a plant with one input, and distinct linearization points as in C77.  If only one coordinate of the points
varies they have to be sorted along it.  If it answers, there is one mode per point, its domain consists of the states in the inequalities of `X` closest to
the point with the inputs in `U`, and its dynamics is the discretization of the first order approximation of the plant at this point and input zero; the
domains cover `X` times `U`.  It answers in the cases of C77.

Missing: points that are not sorted (`C95_false`); small differences of coordinates and the equalities of `X` as in C77. -/
theorem C95_partial (V : Vor) (hV : VorSpec V) (nx : ℕ) (f : Field nx) (T : Taylor) (hT : TaylorSpec f T) (points : List (Vec ℝ)) (hne : points ≠ [])
    (hn : ∀ p ∈ points, p.n = nx) (hd : Distinct nx points) (hs : Separated nx points)
    (hsort : ∀ c, OneVaries nx points c → points.Pairwise fun p q => p.e c < q.e c)
    (J : ℕ → (Fin nx → ℝ) × (Fin 1 → ℝ) →L[ℝ] (Fin nx → ℝ)) (hJ : ∀ i < points.length, HasFDerivAt f (J i) (fun k => (pt points i).e k, 0))
    (X : Option Poly) (hX : ∀ X', X = some X' → X'.Inv nx) (U : Poly) (hU : U.Inv 1) (h : ℝ) (hh : 0 ≤ h) (method : Method) (hm : method ≠ .other) :
    (∀ S, pwa_from_RigidBodyPlant V T points X U h method = .ok S → S.nx = nx ∧ S.nu = 1 ∧ PwaShape S ∧ S.nm = points.length ∧
      (∀ i < points.length, (∀ z, (domAt S i).Mem z ↔ Closest nx points i z ∧ InBounds nx X z ∧ U.Mem fun k => z (nx + k)) ∧
        Discretizes (linearized f (J i) (pt points i).e) h method (sysAt S i)) ∧
      ∀ z, InBounds nx X z → (U.Mem fun k => z (nx + k)) → ∃ i < points.length, (domAt S i).Mem z) ∧
    ((∃ c, OneVaries nx points c) → ∃ S, pwa_from_RigidBodyPlant V T points X U h method = .ok S) ∧
    ((∃ c < nx, ∃ d < nx, c ≠ d ∧ Varies points c ∧ Varies points d) → SpreadIn nx points →
      ∃ S, pwa_from_RigidBodyPlant V T points X U h method = .ok S) := by
  obtain ⟨v1, v2, v3⟩ := C77_partial V hV nx points hne hn hd hs X hX
  have key : ∀ cells, constrained_voronoi V points X = .ok cells → ∃ S, pwa_from_RigidBodyPlant V T points X U h method = .ok S ∧
      S.nx = nx ∧ S.nu = 1 ∧ PwaShape S ∧ S.nm = points.length ∧
      ∀ i < points.length, (∀ z, (domAt S i).Mem z ↔ Closest nx points i z ∧ InBounds nx X z ∧ U.Mem fun k => z (nx + k)) ∧
        Discretizes (linearized f (J i) (pt points i).e) h method (sysAt S i) := by
    intro cells hc
    obtain ⟨points', hperm, hl, hI, e1, e2, hm', -⟩ := v1 cells hc
    have hpp : points' = points := by
      by_cases h1 : ∃ c, OneVaries nx points c
      · obtain ⟨c, h1⟩ := h1
        exact sorted_unique hperm (e2 c h1) (hsort c h1)
      · exact e1 fun c hc => h1 ⟨c, hc⟩
    rw [hpp] at hm'
    exact plant_run hT hne hn hJ hU hh hm hc hl hI hm'
  refine ⟨fun S hS => ?_, fun h1 => ?_, fun h1 h2 => ?_⟩
  · have hpart : ∃ cells, constrained_voronoi V points X = .ok cells := by
      unfold pwa_from_RigidBodyPlant at hS
      obtain ⟨cells, hc, -⟩ := Py.bind_eq_ok hS
      exact ⟨cells, hc⟩
    obtain ⟨cells, hc⟩ := hpart
    obtain ⟨S', hS', a, b, c, d, e⟩ := key cells hc
    rw [hS] at hS'
    cases hS'
    refine ⟨a, b, c, d, e, fun z hz hu => ?_⟩
    obtain ⟨i, hi, hmin⟩ := Finset.exists_min_image (range points.length) (fun i => sqDist nx z (pt points i).e)
      ⟨0, mem_range.2 (List.length_pos_iff.2 hne)⟩
    exact ⟨i, mem_range.1 hi, ((e i (mem_range.1 hi)).1 z).2 ⟨closest_iff.2 fun k hk => hmin k (mem_range.2 hk), hz, hu⟩⟩
  · obtain ⟨cells, hc⟩ := v2 h1
    obtain ⟨S, hS, -⟩ := key cells hc
    exact ⟨S, hS⟩
  · obtain ⟨cells, hc⟩ := v3 h1 h2
    obtain ⟨S, hS, -⟩ := key cells hc
    exact ⟨S, hS⟩

/-! ### a plant with a quadratic field -/

open Classical in
/-- the contract of the approximation can be met for every field -/
theorem exists_taylor {nx : ℕ} (f : Field nx) : ∃ T, TaylorSpec f T := by
  refine ⟨⟨fun p => if hp : ∃ J : (Fin nx → ℝ) × (Fin 1 → ℝ) →L[ℝ] (Fin nx → ℝ), HasFDerivAt f J (fun k => p.e k, 0) then
    .ok (⟨nx, nx, fun i j => if hi : i < nx then hp.choose (fun k => if k.val = j then 1 else 0, 0) ⟨i, hi⟩ else 0⟩,
      ⟨nx, 1, fun i _ => if hi : i < nx then hp.choose (0, fun _ => 1) ⟨i, hi⟩ else 0⟩,
      ⟨nx, fun i => if hi : i < nx then f (fun k => p.e k, 0) ⟨i, hi⟩ - hp.choose (fun k => p.e k, 0) ⟨i, hi⟩ else 0⟩) else .error .valueError⟩, ⟨?_⟩⟩
  intro p hp J hJ
  have hex : ∃ J : (Fin nx → ℝ) × (Fin 1 → ℝ) →L[ℝ] (Fin nx → ℝ), HasFDerivAt f J (fun k => p.e k, 0) := ⟨J, hJ⟩
  have hJJ : hex.choose = J := hex.choose_spec.unique hJ
  refine ⟨_, _, _, dif_pos hex, ⟨rfl, rfl, rfl, rfl, rfl⟩, fun x u i => ?_⟩
  rw [hJJ]
  have hlin : ∀ x : Fin nx → ℝ, J (x, 0) = ∑ j, x j • J (fun k => if k.val = j.val then 1 else 0, 0) := fun x => by
    have : (x, (0 : Fin 1 → ℝ)) = ∑ j, x j • ((fun k => if k.val = j.val then 1 else 0, 0) : (Fin nx → ℝ) × (Fin 1 → ℝ)) := by
      refine Prod.ext ?_ ?_
      · rw [Prod.fst_sum]
        funext k
        rw [Finset.sum_apply, Finset.sum_eq_single k]
        · simp
        · intro j _ hj
          simp
          exact fun h => absurd (Fin.ext h.symm) hj
        · simp
      · rw [Prod.snd_sum]
        simp
    conv_lhs => rw [this, map_sum]
    simp only [map_smul]
  have hu : J (0, fun k => u k) = u 0 • J (0, fun _ => 1) := by
    rw [← map_smul]
    congr 1
    refine Prod.ext (by simp) ?_
    funext k
    simp [Subsingleton.elim k 0]
  have hsplit : J (fun k => x k - p.e k, fun k => u k) = J (fun k => x k, 0) - J (fun k => p.e k, 0) + J (0, fun k => u k) := by
    rw [← map_sub, ← map_add]
    congr 1
    refine Prod.ext ?_ ?_
    · funext k; simp
    · funext k; simp
  unfold linearized
  rw [hsplit, hu, hlin (fun k => x k)]
  simp only [Spec.affine, Finset.sum_range_one]
  rw [Finset.sum_range]
  simp only [i.2, dif_pos, Fin.eta, Pi.add_apply, Pi.sub_apply, Finset.sum_apply, Pi.smul_apply, smul_eq_mul]
  have hc : ∑ j : Fin nx, J (fun k => if k.val = j.val then 1 else 0, 0) i * x j = ∑ j : Fin nx, x j * J (fun k => if k.val = j.val then 1 else 0, 0) i :=
    Finset.sum_congr rfl fun j _ => mul_comm _ _
  rw [hc]
  ring

/-- `dx/dt = x^2 + u` -/
def squareF : Field 1 := fun z _ => z.1 0 ^ 2 + z.2 0

/-- the derivative of `squareF` at `p` -/
noncomputable def squareD (p : ℝ) : (Fin 1 → ℝ) × (Fin 1 → ℝ) →L[ℝ] (Fin 1 → ℝ) :=
  ContinuousLinearMap.pi fun _ => (2 * p) • (ContinuousLinearMap.proj 0).comp (ContinuousLinearMap.fst ℝ _ _) +
    (ContinuousLinearMap.proj 0).comp (ContinuousLinearMap.snd ℝ _ _)

theorem squareF_deriv (p : ℝ) : HasFDerivAt squareF (squareD p) (fun _ => p, 0) := by
  refine hasFDerivAt_pi.2 fun _ => ?_
  have h1 : HasFDerivAt (fun z : (Fin 1 → ℝ) × (Fin 1 → ℝ) => z.1 0) ((ContinuousLinearMap.proj 0).comp (ContinuousLinearMap.fst ℝ _ _)) ((fun _ => p, 0) : (Fin 1 → ℝ) × (Fin 1 → ℝ)) :=
    ((ContinuousLinearMap.proj (R := ℝ) (φ := fun _ : Fin 1 => ℝ) 0).comp (ContinuousLinearMap.fst ℝ (Fin 1 → ℝ) (Fin 1 → ℝ))).hasFDerivAt
  have h2 : HasFDerivAt (fun z : (Fin 1 → ℝ) × (Fin 1 → ℝ) => z.2 0) ((ContinuousLinearMap.proj 0).comp (ContinuousLinearMap.snd ℝ _ _)) ((fun _ => p, 0) : (Fin 1 → ℝ) × (Fin 1 → ℝ)) :=
    ((ContinuousLinearMap.proj (R := ℝ) (φ := fun _ : Fin 1 => ℝ) 0).comp (ContinuousLinearMap.snd ℝ (Fin 1 → ℝ) (Fin 1 → ℝ))).hasFDerivAt
  have h3 := (h1.pow 2).add h2
  refine HasFDerivAt.congr_fderiv (show HasFDerivAt (fun x => squareF x _) _ _ from h3) ?_
  simp

theorem squareF_linearized (p : ℝ) (x u : ℕ → ℝ) (i : Fin 1) : linearized squareF (squareD p) (fun _ => p) x u i = p ^ 2 + 2 * p * (x 0 - p) + u 0 := by
  unfold linearized squareF squareD
  simp
  ring

/-- inputs between `-1` and `1` -/
noncomputable def box1 : Poly := Poly.fresh ⟨2, 1, fun i _ => if i = 0 then 1 else -1⟩ ⟨2, fun _ => 1⟩ (Mat.zeros 0 1) (Vec.zeros 0)

theorem box1_inv : box1.Inv 1 := ⟨rfl, rfl, rfl, rfl⟩

theorem box1_mem (x : ℕ → ℝ) : box1.Mem x ↔ |x 0| ≤ 1 := by
  rw [abs_le]
  constructor
  · intro h
    have h0 := h.1 0 (by show 0 < 2; norm_num)
    have h1 := h.1 1 (by show 1 < 2; norm_num)
    simp [box1, Poly.fresh] at h0 h1
    exact ⟨by linarith, h0⟩
  · intro h
    refine ⟨fun i hi => ?_, fun i hi => absurd hi (Nat.not_lt_zero i)⟩
    have hi : i < 2 := hi
    interval_cases i <;> simp [box1, Poly.fresh] <;> linarith [h.1, h.2]

/-- C95 for the field `x^2 + u` and the points `0`, `1`: the two modes meet at `1/2`, and a step of length `1/10` of the second one is that of
`dx/dt = 1 + 2 (x - 1) + u` -/
example (V : Vor) (hV : VorSpec V) (T : Taylor) (hT : TaylorSpec squareF T) : ∃ S,
    pwa_from_RigidBodyPlant V T [onLine 0, onLine 1] none box1 (1 / 10) .explicitEuler = .ok S ∧ S.nm = 2 ∧
      (∀ z, (domAt S 0).Mem z ↔ z 0 ≤ 1 / 2 ∧ |z 1| ≤ 1) ∧
      ∀ x u, Spec.affine (sysAt S 1).A (sysAt S 1).B (sysAt S 1).c x u 0 = x 0 + 1 / 10 * (1 + 2 * (x 0 - 1) + u 0) := by
  obtain ⟨h1, h2, -⟩ := C95_partial V hV 1 squareF T hT [onLine 0, onLine 1] (by simp) (onLine_sizes 0 1) (onLine_distinct (by norm_num)) onLine_separated_01
    (fun c hc => by
      obtain rfl : c = 0 := by have := hc.1; omega
      simp [onLine]) (fun i => squareD i) (fun i hi => by
      have hi : i < 2 := hi
      interval_cases i
      · simpa [pt, onLine] using squareF_deriv 0
      · simpa [pt, onLine] using squareF_deriv 1) none (fun _ h => by cases h) box1 box1_inv (1 / 10) (by norm_num) .explicitEuler (by simp)
  obtain ⟨S, hS⟩ := h2 ⟨0, onLine_one (by norm_num)⟩
  obtain ⟨-, -, -, hnm, hall, -⟩ := h1 S hS
  refine ⟨S, hS, hnm, fun z => ?_, fun x u => ?_⟩
  · rw [(hall 0 (by show 0 < 2; norm_num)).1 z, box1_mem]
    have e : Closest 1 [onLine 0, onLine 1] 0 z ↔ z 0 ≤ 1 / 2 := by
      unfold Closest
      simp [onLine, sqDist_one]
      constructor <;> intro h <;> nlinarith
    rw [e]
    exact ⟨fun h => ⟨h.1, h.2.2⟩, fun h => ⟨h.1, fun _ h => (by cases h), h.2⟩⟩
  · have := (hall 1 (by show 1 < 2; norm_num)).2 x u 0
    refine this.trans ?_
    have e : (pt [onLine 0, onLine 1] 1).e = fun _ => 1 := rfl
    rw [e]
    have := squareF_linearized 1 x u 0
    simp only [Nat.cast_one] at this ⊢
    rw [this]
    simp

/-- C95 is false of the code: for the field `x^2 + u` and the points `1`, `0` (in this order) the origin is in the domain of the first mode only, whose dynamics
is the approximation at `1`, although the origin is the second point. -/
theorem C95_false (V : Vor) (hV : VorSpec V) (T : Taylor) (hT : TaylorSpec squareF T) : ∃ S,
    pwa_from_RigidBodyPlant V T [onLine 1, onLine 0] none box1 (1 / 10) .explicitEuler = .ok S ∧ S.nm = 2 ∧
      (domAt S 0).Mem (fun _ => 0) ∧ ¬ (domAt S 1).Mem (fun _ => 0) ∧ Closest 1 [onLine 1, onLine 0] 1 (fun _ => 0) ∧
      ¬ Closest 1 [onLine 1, onLine 0] 0 (fun _ => 0) ∧
      ∀ x u, Spec.affine (sysAt S 0).A (sysAt S 0).B (sysAt S 0).c x u 0 = x 0 + 1 / 10 * (1 + 2 * (x 0 - 1) + u 0) := by
  obtain ⟨h1, h2, -⟩ := C77_partial V hV 1 _ (by simp) (onLine_sizes 1 0) (onLine_distinct (by norm_num)) onLine_separated_10 none (fun _ h => by cases h)
  obtain ⟨cells, hc⟩ := h2 ⟨0, onLine_one (by norm_num)⟩
  obtain ⟨points', hperm, hl, hI, -, hs, hm, -⟩ := h1 cells hc
  have hpp : points' = [onLine 0, onLine 1] := by
    refine sorted_unique (c := 0) (hperm.trans (List.Perm.swap _ _ _)) (hs 0 (onLine_one (by norm_num))) ?_
    simp [onLine]
  rw [hpp] at hm
  obtain ⟨S, hS, -, -, -, hnm, hall⟩ := plant_run hT (by simp) (onLine_sizes 1 0) (J := fun i => squareD (1 - i)) (fun i hi => by
      have hi : i < 2 := hi
      interval_cases i
      · simpa [pt, onLine] using squareF_deriv 1
      · simpa [pt, onLine] using squareF_deriv 0) box1_inv (show (0 : ℝ) ≤ 1 / 10 by norm_num) (method := .explicitEuler) (by simp) hc hl hI hm
  refine ⟨S, hS, hnm, ?_, ?_, ?_, ?_, fun x u => ?_⟩
  · rw [(hall 0 (by show 0 < 2; norm_num)).1, box1_mem]
    refine ⟨?_, fun _ h => (by cases h), by norm_num⟩
    simp [Closest, onLine, sqDist_one]
  · rw [(hall 1 (by show 1 < 2; norm_num)).1]
    rintro ⟨h, -⟩
    have := h (onLine 0) (by simp)
    simp [onLine, sqDist_one] at this
    linarith
  · simp [Closest, onLine, sqDist_one]
  · intro h
    have := h (onLine 0) (by simp)
    simp [onLine, sqDist_one] at this
    linarith
  · have := (hall 0 (by show 0 < 2; norm_num)).2 x u 0
    refine this.trans ?_
    have e : (pt [onLine 1, onLine 0] 0).e = fun _ => 1 := rfl
    rw [e]
    have := squareF_linearized 1 x u 0
    simp only [Nat.cast_zero, sub_zero] at this ⊢
    rw [this]
    simp

end Verif.Props
