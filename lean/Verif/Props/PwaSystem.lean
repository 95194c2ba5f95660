import Verif.Model.Pwa
import Verif.Props.Simulation
import Verif.Props.PolyhedronSets

/- Piecewise affine systems: C58 and C59 of properties.jsonl. -/
namespace Verif.Props
open Dyn Spec Finset

theorem onlyElement_iff {l : List ℕ} {a : ℕ} : onlyElement l = .ok a ↔ l ≠ [] ∧ ∀ b ∈ l, b = a := by
  constructor
  · intro h
    unfold onlyElement at h
    split at h
    · next c hc =>
      cases h
      refine ⟨fun h => by rw [h] at hc; simp at hc, fun b hb => ?_⟩
      have := List.mem_dedup.2 hb
      rw [hc] at this
      simpa using this
    · cases h
  · rintro ⟨hne, h⟩
    have h1 : l.dedup = [a] := by
      obtain ⟨c, t, hc⟩ := List.exists_cons_of_ne_nil hne
      have hmem : ∀ b ∈ l.dedup, b = a := fun b hb => h b (List.mem_dedup.1 hb)
      have hin : c ∈ l.dedup := List.mem_dedup.2 (by rw [hc]; simp)
      have hnd := List.nodup_dedup l
      match hd : l.dedup with
      | [] => rw [hd] at hin; simp at hin
      | [b] => rw [hmem b (by rw [hd]; simp)]
      | b :: b' :: t =>
        rw [hd] at hnd hmem
        have e1 := hmem b (by simp)
        have e2 := hmem b' (by simp)
        rw [e1, e2] at hnd
        simp at hnd
    unfold onlyElement
    rw [h1]

theorem onlyElement_error {l : List ℕ} {e : PyErr} (h : onlyElement l = .error e) : e = .valueError := by
  unfold onlyElement at h
  split at h
  · cases h
  · cases h; rfl

/-- what the constructors of linear and affine systems ensure -/
def SysOk : Sys → Prop
  | .lin S => SystemShape S.nx S.nu S.A S.B (Vec.zeros S.nx)
  | .aff S => SystemShape S.nx S.nu S.A S.B S.c

/-- the affine system with the law of `S` -/
def asAffine : Sys → AffineSystem
  | .lin S => ⟨S.A, S.B, Vec.zeros S.nx, S.nx, S.nu⟩
  | .aff S => S

theorem toAffine_ok {S : Sys} (h : SysOk S) {nx : ℕ} (hn : S.nx = nx) : S.toAffine nx = .ok (asAffine S) := by
  cases S with
  | lin S =>
    have hn' : S.nx = nx := hn
    subst hn'
    show AffineSystem.init S.A S.B (.d1 (Vec.zeros S.nx)) = _
    unfold AffineSystem.init
    rw [check_ok' h, Py.ok_bind, h.2.2.1, h.2.2.2.1]
    rfl
  | aff S => rfl

/-- C58: the constructor of `PieceWiseAffineSystem` accepts exactly the non-empty lists of equally many systems and domains, with
common numbers of states and inputs and with domains of the right dimension; it raises `ValueError` otherwise.  The attributes are
the given ones, with linear systems turned into affine systems with zero offset, which follow the same law. -/
theorem C58 (systems : List Sys) (domains : List Poly) (hs : ∀ S ∈ systems, SysOk S) :
    ((∃ P, PWA.init systems domains = .ok P) ↔ systems ≠ [] ∧ systems.length = domains.length ∧
      ∃ nx nu, (∀ S ∈ systems, S.nx = nx ∧ S.nu = nu) ∧ ∀ D ∈ domains, D.A.nc = nx + nu) ∧
    (∀ e, PWA.init systems domains = .error e → e = .valueError) ∧
    ∀ P, PWA.init systems domains = .ok P →
      (∀ S ∈ systems, S.nx = P.nx ∧ S.nu = P.nu) ∧ (∀ D ∈ P.domains, D.A.nc = P.nx + P.nu) ∧
      P.domains = domains ∧ P.nm = domains.length ∧ P.affine_systems.length = P.nm ∧
      (∀ S ∈ P.affine_systems, SystemShape P.nx P.nu S.A S.B S.c ∧ S.nx = P.nx ∧ S.nu = P.nu) ∧
      ∀ i : ℕ, (∀ S, systems[i]? = some (.aff S) → P.affine_systems[i]? = some S) ∧
        ∀ S, systems[i]? = some (.lin S) → ∃ T, P.affine_systems[i]? = some T ∧
          ∀ x u : ℕ → ℝ, ∀ k < P.nx, affine T.A T.B T.c x u k = ∑ j ∈ range P.nx, S.A.e k j * x j + ∑ j ∈ range P.nu, S.B.e k j * u j := by
  -- the run of the constructor
  have key : (PWA.init systems domains = .error .valueError ∧ ¬ (systems ≠ [] ∧ systems.length = domains.length ∧
      ∃ nx nu, (∀ S ∈ systems, S.nx = nx ∧ S.nu = nu) ∧ ∀ D ∈ domains, D.A.nc = nx + nu)) ∨
      ∃ nx nu, systems ≠ [] ∧ systems.length = domains.length ∧ (∀ S ∈ systems, S.nx = nx ∧ S.nu = nu) ∧
        (∀ D ∈ domains, D.A.nc = nx + nu) ∧
        PWA.init systems domains = .ok ⟨nx, nu, systems.map asAffine, domains, (systems.map asAffine).length⟩ := by
    unfold PWA.init
    by_cases h1 : systems.length = domains.length
    swap
    · left
      refine ⟨?_, fun h => h1 h.2.1⟩
      simp [h1]
    simp only [ne_eq, h1, not_true_eq_false, if_false]
    cases h2 : onlyElement (systems.map Sys.nx) with
    | error e =>
      left
      rw [onlyElement_error h2]
      refine ⟨rfl, fun ⟨a, b, nx, nu, c, d⟩ => ?_⟩
      have := (onlyElement_iff (l := systems.map Sys.nx) (a := nx)).2 ⟨by simpa using a, by
        intro b hb; obtain ⟨S, hS, rfl⟩ := List.mem_map.1 hb; exact (c S hS).1⟩
      rw [h2] at this; cases this
    | ok nx =>
    obtain ⟨n1, n2⟩ := onlyElement_iff.1 h2
    have n1' : systems ≠ [] := by simpa using n1
    have n2' : ∀ S ∈ systems, S.nx = nx := fun S hS => n2 _ (List.mem_map.2 ⟨S, hS, rfl⟩)
    cases h3 : onlyElement (systems.map Sys.nu) with
    | error e =>
      left
      rw [onlyElement_error h3]
      refine ⟨rfl, fun ⟨a, b, nx, nu, c, d⟩ => ?_⟩
      have := (onlyElement_iff (l := systems.map Sys.nu) (a := nu)).2 ⟨by simpa using a, by
        intro b hb; obtain ⟨S, hS, rfl⟩ := List.mem_map.1 hb; exact (c S hS).2⟩
      rw [h3] at this; cases this
    | ok nu =>
    obtain ⟨-, m2⟩ := onlyElement_iff.1 h3
    have m2' : ∀ S ∈ systems, S.nu = nu := fun S hS => m2 _ (List.mem_map.2 ⟨S, hS, rfl⟩)
    have huniq : ∀ nx' nu', (∀ S ∈ systems, S.nx = nx' ∧ S.nu = nu') → nx' = nx ∧ nu' = nu := by
      intro nx' nu' h
      obtain ⟨S, t, hS⟩ := List.exists_cons_of_ne_nil n1'
      have hin : S ∈ systems := by rw [hS]; simp
      exact ⟨(h S hin).1.symm.trans (n2' S hin), (h S hin).2.symm.trans (m2' S hin)⟩
    cases h4 : onlyElement (domains.map (·.A.nc)) with
    | error e =>
      left
      rw [onlyElement_error h4]
      refine ⟨rfl, fun ⟨a, b, nx', nu', c, d⟩ => ?_⟩
      have := (onlyElement_iff (l := domains.map (·.A.nc)) (a := nx' + nu')).2 ⟨by
        intro h
        have : domains.length = 0 := by simpa using h
        exact a (List.length_eq_zero_iff.1 (by omega)), by
        intro b hb; obtain ⟨D, hD, rfl⟩ := List.mem_map.1 hb; exact d D hD⟩
      rw [h4] at this; cases this
    | ok nxu =>
    obtain ⟨d1, d2⟩ := onlyElement_iff.1 h4
    by_cases h5 : nxu = nx + nu
    swap
    · left
      simp only [Py.ok_bind, h5, not_false_eq_true, if_true]
      refine ⟨rfl, fun ⟨a, b, nx', nu', c, d⟩ => h5 ?_⟩
      obtain ⟨D, hD⟩ := List.exists_mem_of_ne_nil _ d1
      obtain ⟨D', hD', rfl⟩ := List.mem_map.1 hD
      obtain ⟨rfl, rfl⟩ := huniq nx' nu' c
      rw [← d2 _ hD, d D' hD']
    · right
      refine ⟨nx, nu, n1', trivial, fun S hS => ⟨n2' S hS, m2' S hS⟩, fun D hD => ?_, ?_⟩
      · rw [d2 _ (List.mem_map.2 ⟨D, hD, rfl⟩), h5]
      · simp only [Py.ok_bind, h5, not_true_eq_false, if_false]
        rw [mapM_ok (g := asAffine) fun S hS => toAffine_ok (hs S hS) (n2' S hS)]
        rfl
  rcases key with ⟨h1, h2⟩ | ⟨nx, nu, h1, h2, h3, h4, h5⟩
  · rw [h1]
    refine ⟨⟨fun ⟨P, h⟩ => (by cases h), fun h => absurd h h2⟩, fun e h => (by cases h; rfl), fun P h => (by cases h)⟩
  · rw [h5]
    refine ⟨⟨fun _ => ⟨h1, h2, nx, nu, h3, h4⟩, fun _ => ⟨_, rfl⟩⟩, fun e h => (by cases h), fun P h => ?_⟩
    cases h
    refine ⟨h3, h4, rfl, by simpa using h2, rfl, fun S hS => ?_, fun i => ⟨fun S hS => ?_, fun S hS => ?_⟩⟩
    · obtain ⟨T, hT, rfl⟩ := List.mem_map.1 hS
      obtain ⟨a, b⟩ := h3 T hT
      have := hs T hT
      cases T with
      | lin T =>
        have ha : T.nx = nx := a
        have hb : T.nu = nu := b
        have : SystemShape T.nx T.nu T.A T.B (Vec.zeros T.nx) := this
        rw [ha, hb] at this
        exact ⟨by simpa [asAffine, ha] using this, ha, hb⟩
      | aff T =>
        have ha : T.nx = nx := a
        have hb : T.nu = nu := b
        have : SystemShape T.nx T.nu T.A T.B T.c := this
        rw [ha, hb] at this
        exact ⟨this, ha, hb⟩
    · show (systems.map asAffine)[i]? = _
      rw [List.getElem?_map, hS]; rfl
    · refine ⟨asAffine (.lin S), ?_, fun x u k _ => ?_⟩
      · show (systems.map asAffine)[i]? = _
        rw [List.getElem?_map, hS]; rfl
      · have hin : Sys.lin S ∈ systems := List.mem_of_getElem? hS
        obtain ⟨a, b⟩ := h3 _ hin
        have ha : S.nx = nx := a
        have hb : S.nu = nu := b
        have hsh : SystemShape S.nx S.nu S.A S.B (Vec.zeros S.nx) := hs _ hin
        simp only [affine, asAffine, hsh.2.1, hsh.2.2.2.1, ha, hb]
        rw [show (Vec.zeros nx : Vec ℝ).e k = 0 from rfl, add_zero]

/-- systems and domains that the constructor accepts -/
example : let S : LinearSystem := ⟨Mat.eye 1, Mat.eye 1, 1, 1, none⟩
    let T : AffineSystem := ⟨Mat.eye 1, Mat.eye 1, Vec.ones 1, 1, 1⟩
    let D := Poly.fresh ⟨1, 2, fun _ _ => 1⟩ ⟨1, fun _ => 1⟩ (Mat.zeros 0 2) (Vec.zeros 0)
    (∀ R ∈ [Sys.lin S, Sys.aff T], SysOk R) ∧ ∃ P, PWA.init [.lin S, .aff T] [D, D] = .ok P := by
  intro S T D
  have h : ∀ R ∈ [Sys.lin S, Sys.aff T], SysOk R := by
    intro R hR
    simp only [List.mem_cons, List.not_mem_nil, or_false] at hR
    rcases hR with rfl | rfl
    · exact ⟨rfl, rfl, rfl, rfl, rfl⟩
    · exact ⟨rfl, rfl, rfl, rfl, rfl⟩
  refine ⟨h, (C58 _ _ h).1.2 ⟨by simp, rfl, 1, 1, fun R hR => ?_, fun D' hD => ?_⟩⟩
  · simp only [List.mem_cons, List.not_mem_nil, or_false] at hR
    rcases hR with rfl | rfl <;> exact ⟨rfl, rfl⟩
  · simp only [List.mem_cons, List.not_mem_nil, or_false] at hD
    rcases hD with rfl | rfl <;> rfl

/-- `z` meets the inequalities of `D` up to `tol`; of the equalities `C z = d` the code only requires that no residual is above
`tol` and that some residual is at least `-tol` (see C12) -/
def InsideTol (tol : ℝ) (D : Poly) (z : ℕ → ℝ) : Prop :=
  (∀ i < D.A.nr, rowVal D.A i z ≤ D.b.e i + tol) ∧
    (0 < D.C.nr → (∀ i < D.C.nr, rowVal D.C i z ≤ D.d.e i + tol) ∧ ∃ i < D.C.nr, D.d.e i - tol ≤ rowVal D.C i z)

theorem contains_inside {n : ℕ} {D : Poly} (hD : D.Inv n) (hA : 0 < D.A.nr) (z : Vec ℝ) (hz : z.n = n) (tol : ℝ) :
    ∃ r, D.contains z tol = .ok r ∧ (r = true ↔ InsideTol tol D z.e) := by
  obtain ⟨r, h1, h2⟩ := contains_iff hD hA z hz tol
  refine ⟨r, h1, h2.trans ?_⟩
  obtain ⟨s1, s2, s3, s4⟩ := id hD
  have eA : ∀ i, ∑ j ∈ range n, D.A.e i j * z.e j = rowVal D.A i z.e := fun i => by unfold rowVal; rw [s1]
  have eC : ∀ i, ∑ j ∈ range n, D.C.e i j * z.e j = rowVal D.C i z.e := fun i => by unfold rowVal; rw [s3]
  simp only [eA, eC]
  refine and_congr (forall₂_congr fun i _ => ⟨fun h => by linarith, fun h => by linarith⟩) (forall_congr' fun h0 => ?_)
  refine and_congr (forall₂_congr fun i _ => ⟨fun h => by linarith, fun h => by linarith⟩) ⟨?_, ?_⟩
  · rintro ⟨i, hi, -, h⟩
    exact ⟨i, hi, by linarith⟩
  · rintro ⟨i, hi, h⟩
    obtain ⟨k, hk, hmax⟩ := Finset.exists_max_image (range D.C.nr) (fun k => rowVal D.C k z.e - D.d.e k) ⟨0, Finset.mem_range.2 h0⟩
    exact ⟨k, Finset.mem_range.1 hk, fun j hj => hmax j (Finset.mem_range.2 hj), by
      have := hmax i (Finset.mem_range.2 hi)
      linarith⟩

theorem InsideTol.congr {n : ℕ} {D : Poly} (hD : D.Inv n) {tol : ℝ} {z w : ℕ → ℝ} (h : ∀ j < n, z j = w j) :
    InsideTol tol D z ↔ InsideTol tol D w := by
  have eA : ∀ i, rowVal D.A i z = rowVal D.A i w := fun i => rowVal_congr' i fun j hj => h j (by rw [hD.1] at hj; exact hj)
  have eC : ∀ i, rowVal D.C i z = rowVal D.C i w := fun i => rowVal_congr' i fun j hj => h j (by rw [hD.2.2.1] at hj; exact hj)
  unfold InsideTol
  simp only [eA, eC]

/-- `m` is the first mode whose domain contains `(x, u)` -/
def FirstMode (P : PWA) (x u : Vec ℝ) (m : ℕ) : Prop :=
  (∃ D, P.domains[m]? = some D ∧ InsideTol 1e-7 D (x.append u).e) ∧
    ∀ k < m, ∀ D, P.domains[k]? = some D → ¬ InsideTol 1e-7 D (x.append u).e

/-- a piecewise affine system with consistent dimensions, with a system for every domain, and at least one inequality in every domain -/
structure PwaOk (P : PWA) : Prop where
  len : P.affine_systems.length = P.domains.length
  sys : ∀ S ∈ P.affine_systems, SystemShape P.nx P.nu S.A S.B S.c
  dom : ∀ D ∈ P.domains, D.Inv (P.nx + P.nu) ∧ 0 < D.A.nr

/-- `xs` and `ms` are the states and modes of the system from `x0` with inputs `u`: the states follow the affine systems of the modes, and
every mode is the first one whose domain contains state and input -/
structure PwaRun (P : PWA) (x0 : Vec ℝ) (u xs : List (Vec ℝ)) (ms : List ℕ) : Prop where
  len : ms.length = u.length
  traj : ∀ T, IsTrajectory P.nx (fun t => (P.affine_systems.getD (ms.getD t 0) T).A) (fun t => (P.affine_systems.getD (ms.getD t 0) T).B)
    (fun t => (P.affine_systems.getD (ms.getD t 0) T).c) x0 u xs
  mode : ∀ (t : ℕ) (x v : Vec ℝ) (m : ℕ), xs[t]? = some x → u[t]? = some v → ms[t]? = some m → FirstMode P x v m

theorem modeFrom_ok {n : ℕ} {z : Vec ℝ} (hz : z.n = n) : ∀ (l : List Poly) (i : ℕ), (∀ D ∈ l, D.Inv n ∧ 0 < D.A.nr) →
    (PWA.modeFrom z i l = .ok none ∧ ∀ D ∈ l, ¬ InsideTol 1e-7 D z.e) ∨
    ∃ m, PWA.modeFrom z i l = .ok (some (i + m)) ∧ (∃ D, l[m]? = some D ∧ InsideTol 1e-7 D z.e) ∧
      ∀ k < m, ∀ D, l[k]? = some D → ¬ InsideTol 1e-7 D z.e
  | [], i, _ => .inl ⟨rfl, by simp⟩
  | D :: l, i, h => by
    obtain ⟨r, h1, h2⟩ := contains_inside (h D (by simp)).1 (h D (by simp)).2 z hz 1e-7
    have e : PWA.modeFrom z i (D :: l) = if r then .ok (some i) else PWA.modeFrom z (i + 1) l := by
      rw [PWA.modeFrom, h1, Py.ok_bind]; rfl
    rw [e]
    cases r with
    | true =>
      exact .inr ⟨0, rfl, ⟨D, rfl, h2.1 rfl⟩, by simp⟩
    | false =>
      have hno : ¬ InsideTol 1e-7 D z.e := fun h => by have := h2.2 h; cases this
      rcases modeFrom_ok hz l (i + 1) (fun D' hD' => h D' (by simp [hD'])) with ⟨k1, k2⟩ | ⟨m, k1, k2, k3⟩
      · left
        refine ⟨k1, fun D' hD' => ?_⟩
        rcases List.mem_cons.1 hD' with rfl | hD'
        · exact hno
        · exact k2 D' hD'
      · right
        refine ⟨m + 1, ?_, by simpa using k2, fun k hk D' hD' => ?_⟩
        · simp only [Bool.false_eq_true, if_false, k1]
          congr 2; omega
        · cases k with
          | zero => cases hD'; exact hno
          | succ k => exact k3 k (by omega) D' (by simpa using hD')

/-- the result of `get_mode` -/
theorem get_mode_ok {P : PWA} (hP : PwaOk P) {x u : Vec ℝ} (hx : x.n = P.nx) (hu : u.n = P.nu) :
    (P.get_mode x u = .ok none ∧ ∀ m, ¬ FirstMode P x u m) ∨ ∃ m, P.get_mode x u = .ok (some m) ∧ FirstMode P x u m := by
  have e : P.get_mode x u = PWA.modeFrom (x.append u) 0 P.domains := rfl
  rw [e]
  rcases modeFrom_ok (n := P.nx + P.nu) (z := x.append u) (by rw [Vec.append_n, hx, hu]) P.domains 0 hP.dom with ⟨h1, h2⟩ | ⟨m, h1, h2⟩
  · exact .inl ⟨h1, fun m h => by
      obtain ⟨⟨D, hD, hin⟩, -⟩ := h
      exact h2 D (List.mem_of_getElem? hD) hin⟩
  · exact .inr ⟨m, by simpa using h1, h2⟩

theorem FirstMode.unique {P : PWA} {x u : Vec ℝ} {m k : ℕ} (h1 : FirstMode P x u m) (h2 : FirstMode P x u k) : m = k := by
  obtain ⟨⟨D, hD, hin⟩, h1⟩ := h1
  obtain ⟨⟨D', hD', hin'⟩, h2⟩ := h2
  rcases lt_trichotomy m k with h | h | h
  · exact absurd hin (h2 m h D hD)
  · exact h
  · exact absurd hin' (h1 k h D' hD')

theorem FirstMode.congr {P : PWA} (hP : PwaOk P) {x y u : Vec ℝ} {m : ℕ} (hx : x.n = P.nx) (hy : y.n = P.nx)
    (h : ∀ i < P.nx, x.e i = y.e i) : FirstMode P x u m → FirstMode P y u m := by
  have e : ∀ j < P.nx + P.nu, (x.append u).e j = (y.append u).e j := by
    intro j _
    by_cases hj : j < P.nx
    · rw [Vec.append_e_lt _ _ (by omega), Vec.append_e_lt _ _ (by omega), h j hj]
    · obtain ⟨k, rfl⟩ := Nat.exists_eq_add_of_le (not_lt.1 hj)
      rw [show P.nx + k = x.n + k by rw [hx], Vec.append_e_add, show x.n + k = y.n + k by rw [hx, hy], Vec.append_e_add]
  rintro ⟨⟨D, hD, hin⟩, h2⟩
  exact ⟨⟨D, hD, (InsideTol.congr (hP.dom D (List.mem_of_getElem? hD)).1 e).1 hin⟩, fun k hk D' hD' hin' =>
    h2 k hk D' hD' ((InsideTol.congr (hP.dom D' (List.mem_of_getElem? hD')).1 e).2 hin')⟩

theorem FirstMode.lt {P : PWA} (hP : PwaOk P) {x u : Vec ℝ} {m : ℕ} (h : FirstMode P x u m) : m < P.affine_systems.length := by
  obtain ⟨⟨D, hD, -⟩, -⟩ := h
  rw [hP.len]
  exact (List.getElem?_eq_some_iff.1 hD).1

theorem PwaRun.nil {P : PWA} {x : Vec ℝ} (hx : x.n = P.nx) : PwaRun P x [] [x] [] :=
  ⟨rfl, fun _ => .nil hx, by simp⟩

theorem PwaRun.cons {P : PWA} {x y v : Vec ℝ} {u xs : List (Vec ℝ)} {ms : List ℕ} {m : ℕ} (hx : x.n = P.nx) (hm : FirstMode P x v m)
    (hy : ∀ T, ∀ i < P.nx, y.e i = affine (P.affine_systems.getD m T).A (P.affine_systems.getD m T).B (P.affine_systems.getD m T).c x.e v.e i)
    (h : PwaRun P y u xs ms) : PwaRun P x (v :: u) (x :: xs) (m :: ms) := by
  refine ⟨by simp [h.len], fun T => (h.traj T).cons hx (hy T), fun t a b k ha hb hk => ?_⟩
  cases t with
  | zero =>
    simp only [List.getElem?_cons_zero, Option.some.injEq] at ha hb hk
    subst ha hb hk
    exact hm
  | succ t =>
    simp only [List.getElem?_cons_succ] at ha hb hk
    exact h.mode t a b k ha hb hk

/-- the run from the second state on -/
theorem PwaRun.tail {P : PWA} {x v : Vec ℝ} {u xs : List (Vec ℝ)} {ms : List ℕ} (h : PwaRun P x (v :: u) xs ms) :
    ∃ y xs' m ms', FirstMode P x v m ∧ y.n = P.nx ∧
      (∀ T, ∀ i < P.nx, y.e i = affine (P.affine_systems.getD m T).A (P.affine_systems.getD m T).B (P.affine_systems.getD m T).c x.e v.e i) ∧
      PwaRun P y u xs' ms' := by
  have hl := h.len
  have hlx := (h.traj ⟨mat0, mat0, vec0, 0, 0⟩).1
  have h0 := fun T => (h.traj T).2.1
  match ms, xs with
  | [], _ => simp at hl
  | _, [] => simp at hlx
  | _, [_] => simp at hlx
  | m :: ms, a :: y :: xs =>
    have ha : a = x := by simpa using h0 ⟨mat0, mat0, vec0, 0, 0⟩
    subst ha
    refine ⟨y, y :: xs, m, ms, h.mode 0 a v m rfl rfl rfl, (h.traj ⟨mat0, mat0, vec0, 0, 0⟩).2.2.1 y (by simp), fun T i hi => ?_, ?_, fun T => ?_,
      fun t b w k hb hw hk => ?_⟩
    · exact (h.traj T).2.2.2 0 a y v rfl rfl rfl i hi
    · simpa using hl
    · refine ⟨by simpa using hlx, rfl, fun z hz => (h.traj T).2.2.1 z (by simp at hz ⊢; tauto), fun t b c w hb hc hw i hi => ?_⟩
      exact (h.traj T).2.2.2 (t + 1) b c w (by simpa using hb) (by simpa using hc) (by simpa using hw) i hi
    · exact h.mode (t + 1) b w k (by simpa using hb) (by simpa using hw) (by simpa using hk)

/-- the loop of `simulate` -/
theorem simulateFrom_ok {P : PWA} (hP : PwaOk P) : ∀ (u : List (Vec ℝ)) (x : Vec ℝ), x.n = P.nx → (∀ v ∈ u, v.n = P.nu) →
    (∃ xs ms, P.simulateFrom x u = .ok (xs, ms) ∧ PwaRun P x u xs ms) ∨
    (P.simulateFrom x u = .error .valueError ∧ (∀ y xs ms, y.n = P.nx → (∀ i < P.nx, y.e i = x.e i) → ¬ PwaRun P y u xs ms) ∧
      ∃ (t : ℕ) (xs : List (Vec ℝ)) (ms : List ℕ) (y v : Vec ℝ), PwaRun P x (u.take t) xs ms ∧ xs[t]? = some y ∧ u[t]? = some v ∧
        ∀ D ∈ P.domains, ¬ InsideTol 1e-7 D (y.append v).e)
  | [], x, hx, _ => .inl ⟨[x], [], rfl, .nil hx⟩
  | v :: u, x, hx, hu => by
    have hv := hu v (by simp)
    have hrun := modeFrom_ok (n := P.nx + P.nu) (z := x.append v) (by rw [Vec.append_n, hx, hv]) P.domains 0 hP.dom
    rcases get_mode_ok hP hx hv with ⟨h1, h2⟩ | ⟨m, h1, h2⟩
    · right
      refine ⟨?_, fun y xs ms hy hyx h => ?_, 0, [x], [], x, v, .nil hx, rfl, rfl, ?_⟩
      · rw [PWA.simulateFrom, h1, Py.ok_bind]
      · obtain ⟨_, _, m, _, hm, -⟩ := h.tail
        exact h2 m (hm.congr hP hy hx hyx)
      · rcases hrun with ⟨-, h⟩ | ⟨m, h, -⟩
        · exact h
        · have e : P.get_mode x v = PWA.modeFrom (x.append v) 0 P.domains := rfl
          rw [e, h] at h1
          cases h1
    · have hm := h2.lt hP
      have hS : P.affine_systems[m] ∈ P.affine_systems := List.getElem_mem hm
      have hget : ∀ T, P.affine_systems.getD m T = P.affine_systems[m] := fun T => List.getD_eq_getElem _ _ hm
      set S := P.affine_systems[m] with hSdef
      obtain ⟨a1, a2, b1, b2, c1⟩ := hP.sys S hS
      have e0 : np.listGet P.affine_systems m = .ok S := by unfold np.listGet; rw [List.getElem?_eq_getElem hm]
      have e1 : np.dotMV S.A x = .ok (S.A.mulVec x) := if_pos (by omega)
      have e2 : np.dotMV S.B v = .ok (S.B.mulVec v) := if_pos (by omega)
      have e3 : np.addV (S.A.mulVec x) (S.B.mulVec v) = .ok ((S.A.mulVec x).add (S.B.mulVec v)) := if_pos (by simp [a1, b1])
      have e4 : np.addV ((S.A.mulVec x).add (S.B.mulVec v)) S.c = .ok (((S.A.mulVec x).add (S.B.mulVec v)).add S.c) :=
        if_pos (by simp [a1, c1])
      set y := ((S.A.mulVec x).add (S.B.mulVec v)).add S.c with hy
      have hyn : y.n = P.nx := by simp [hy, a1]
      have hye : ∀ T, ∀ i < P.nx, y.e i = affine (P.affine_systems.getD m T).A (P.affine_systems.getD m T).B (P.affine_systems.getD m T).c x.e v.e i :=
        fun T i _ => by rw [hget]; rfl
      have hstep : P.simulateFrom x (v :: u) = (P.simulateFrom y u >>= fun r => .ok (x :: r.1, m :: r.2)) := by
        rw [PWA.simulateFrom, h1, Py.ok_bind]
        simp only [e0, e1, e2, e3, e4, Py.ok_bind]
        rfl
      rw [hstep]
      rcases simulateFrom_ok hP u y hyn (fun w hw => hu w (by simp [hw])) with ⟨xs, ms, k1, k2⟩ | ⟨k1, k2, t, xs, ms, z, w, k3, k4, k5, k6⟩
      · left
        exact ⟨x :: xs, m :: ms, by rw [k1]; rfl, .cons hx h2 hye k2⟩
      · right
        refine ⟨by rw [k1]; rfl, fun x' xs' ms' hx' hxx h => ?_, t + 1, x :: xs, m :: ms, z, w, ?_, by simpa using k4, by simpa using k5, k6⟩
        · obtain ⟨y', xs'', m', ms'', g1, g2, g3, g4⟩ := h.tail
          have : m' = m := (g1.congr hP hx' hx hxx).unique h2
          subst this
          refine k2 y' xs'' ms'' g2 (fun i hi => ?_) g4
          rw [g3 S i hi, hye S i hi, hget]
          simp only [affine]
          congr 2
          exact Finset.sum_congr rfl fun j hj => by rw [hxx j (by rw [a2] at hj; exact Finset.mem_range.1 hj)]
        · exact .cons hx h2 hye k3

/-- C59: `simulate` returns states and modes of a run of the system, in which every mode is the first one whose domain contains state and
input, up to the tolerance of `contains`.  It raises `ValueError` exactly when there is no such run, and then some state and input that are
reached are in no domain.  The states are the ones given by `condense` with the sequence of the modes. -/
theorem C59 (P : PWA) (hP : PwaOk P) (x0 : Vec ℝ) (hx0 : x0.n = P.nx) (u : List (Vec ℝ)) (hu : ∀ v ∈ u, v.n = P.nu) :
    (∀ xs ms, P.simulate x0 u = .ok (xs, ms) → PwaRun P x0 u xs ms) ∧
    (∀ e, P.simulate x0 u = .error e → e = .valueError) ∧
    (P.simulate x0 u = .error .valueError ↔ ¬ ∃ xs ms, PwaRun P x0 u xs ms) ∧
    (P.simulate x0 u = .error .valueError →
      ∃ (t : ℕ) (xs : List (Vec ℝ)) (ms : List ℕ) (y v : Vec ℝ), PwaRun P x0 (u.take t) xs ms ∧ xs[t]? = some y ∧ u[t]? = some v ∧
        ∀ D ∈ P.domains, ¬ InsideTol 1e-7 D (y.append v).e) ∧
    ∀ xs ms, P.simulate x0 u = .ok (xs, ms) → u ≠ [] → (∀ S ∈ P.affine_systems, S.nx = P.nx ∧ S.nu = P.nu) →
      ∃ A_bar B_bar c_bar, P.condense ms = .ok (A_bar, B_bar, c_bar) ∧
        ∀ ubar : ℕ → ℝ, (∀ (t : ℕ) (v : Vec ℝ), u[t]? = some v → ∀ s < P.nu, ubar (P.nu * t + s) = v.e s) →
        ∀ (t : ℕ) (x : Vec ℝ), xs[t]? = some x → ∀ i < P.nx,
          rowVal A_bar (P.nx * t + i) x0.e + rowVal B_bar (P.nx * t + i) ubar + c_bar.e (P.nx * t + i) = x.e i := by
  have e : P.simulate x0 u = P.simulateFrom x0 u := rfl
  rw [e]
  rcases simulateFrom_ok hP u x0 hx0 hu with ⟨xs, ms, k1, k2⟩ | ⟨k1, k2, k3⟩
  · rw [k1]
    refine ⟨fun _ _ h => (by cases h; exact k2), fun _ h => (by cases h), ⟨fun h => (by cases h), fun h => absurd ⟨xs, ms, k2⟩ h⟩,
      fun h => (by cases h), fun xs' ms' h hne hS => ?_⟩
    cases h
    have hms : ∀ m ∈ ms, m < P.affine_systems.length := by
      intro m hm
      obtain ⟨t, ht, rfl⟩ := List.getElem_of_mem hm
      have hlx := (k2.traj ⟨mat0, mat0, vec0, 0, 0⟩).1
      have hl := k2.len
      exact (k2.mode t xs[t] u[t] _ (List.getElem?_eq_getElem (by omega)) (List.getElem?_eq_getElem (by omega))
        (List.getElem?_eq_getElem ht)).lt hP
    have hne' : ms ≠ [] := by
      intro h
      have hl := k2.len
      rw [h] at hl
      exact hne (List.length_eq_zero_iff.1 hl.symm)
    obtain ⟨m, t, hmt⟩ := List.exists_cons_of_ne_nil hne'
    have hpos : 0 < P.affine_systems.length := lt_of_le_of_lt (Nat.zero_le m) (hms m (by rw [hmt]; simp))
    have h0 : P.affine_systems[0]? = some P.affine_systems[0] := List.getElem?_eq_getElem hpos
    obtain ⟨s1, s2⟩ := hS _ (List.getElem_mem hpos)
    obtain ⟨A_bar, B_bar, c_bar, c1, -, -, -, -, -, c2⟩ := (C51 P.affine_systems ms _ h0 (by rw [s1, s2]; exact hP.sys) hms).2 hne'
    rw [s1, s2] at c2
    exact ⟨A_bar, B_bar, c_bar, c1, fun ubar hub => c2 x0 u xs k2.len.symm (k2.traj _) ubar hub⟩
  · rw [k1]
    exact ⟨fun _ _ h => (by cases h), fun _ h => (by cases h; rfl), ⟨fun _ ⟨xs, ms, h⟩ => k2 x0 xs ms hx0 (fun _ _ => rfl) h, fun _ => rfl⟩,
      fun _ => k3, fun _ _ h => by cases h⟩

/-- the system `x⁺ = x + u` for `x + u ≤ 0`, `x⁺ = x + u + 1` for `x + u ≥ 0`, in the second mode at `(2, 0)` -/
example : let S : AffineSystem := ⟨Mat.eye 1, Mat.eye 1, Vec.zeros 1, 1, 1⟩
    let T : AffineSystem := ⟨Mat.eye 1, Mat.eye 1, Vec.ones 1, 1, 1⟩
    let D := Poly.fresh ⟨1, 2, fun _ _ => 1⟩ ⟨1, fun _ => 0⟩ (Mat.zeros 0 2) (Vec.zeros 0)
    let E := Poly.fresh ⟨1, 2, fun _ _ => -1⟩ ⟨1, fun _ => 0⟩ (Mat.zeros 0 2) (Vec.zeros 0)
    let P : PWA := ⟨1, 1, [S, T], [D, E], 2⟩
    PwaOk P ∧ FirstMode P ⟨1, fun _ => 2⟩ ⟨1, fun _ => 0⟩ 1 := by
  intro S T D E P
  refine ⟨⟨rfl, fun R hR => ?_, fun F hF => ?_⟩, ⟨E, rfl, fun i hi => ?_, fun h => ?_⟩, fun k hk F hF h => ?_⟩
  · simp only [P, List.mem_cons, List.not_mem_nil, or_false] at hR
    rcases hR with rfl | rfl <;> exact ⟨rfl, rfl, rfl, rfl, rfl⟩
  · simp only [P, List.mem_cons, List.not_mem_nil, or_false] at hF
    rcases hF with rfl | rfl <;> exact ⟨⟨rfl, rfl, rfl, rfl⟩, by show 0 < 1; omega⟩
  · have : i < 1 := hi
    interval_cases i
    simp [E, Poly.fresh, rowVal, Finset.sum_range_succ, Vec.append]
    norm_num
  · exact absurd h (by simp [E, Poly.fresh, Mat.zeros])
  · obtain rfl : k = 0 := by omega
    simp only [P, List.getElem?_cons_zero, Option.some.injEq] at hF
    subst hF
    have := h.1 0 (by show 0 < 1; omega)
    simp [D, Poly.fresh, rowVal, Finset.sum_range_succ, Vec.append] at this
    norm_num at this

end Verif.Props
