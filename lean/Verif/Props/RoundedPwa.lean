import Verif.Model.RoundingPwa
import Verif.Props.RoundedSimulation
import Verif.Props.PwaSystem

/- Piecewise affine systems in floating point arithmetic: C182 and C183 of properties.jsonl. -/
namespace Verif.Props
open Finset Spec Dyn Control

/-- the rounding errors of the rows of the domains at `z` are at most `E` -/
def RowErrs (P : PWA) (u η : ℝ) (z : ℕ → ℝ) (E : ℝ) : Prop :=
  ∀ D ∈ P.domains, (∀ i < D.A.nr, rowErr u η D.A D.b z i ≤ E) ∧ ∀ i < D.C.nr, rowErr u η D.C D.d z i ≤ E

/-- `z` is not closer than `M` to the threshold of the answer of `D` -/
def ClearOf (M : ℝ) (D : Poly) (z : ℕ → ℝ) : Prop := InsideTol (1e-7 - M) D z ∨ ¬ InsideTol (1e-7 + M) D z

theorem InsideTol.mono {a b : ℝ} (h : a ≤ b) {D : Poly} {z : ℕ → ℝ} (hz : InsideTol a D z) : InsideTol b D z :=
  ⟨fun i hi => (hz.1 i hi).trans (by linarith), fun hC => ⟨fun i hi => ((hz.2 hC).1 i hi).trans (by linarith), by
    obtain ⟨i, hi, h2⟩ := (hz.2 hC).2
    exact ⟨i, hi, by linarith⟩⟩⟩

theorem InsideTol.near {a M : ℝ} {D : Poly} {z w : ℕ → ℝ} (hA : ∀ i < D.A.nr, |rowVal D.A i w - rowVal D.A i z| ≤ M)
    (hC : ∀ i < D.C.nr, |rowVal D.C i w - rowVal D.C i z| ≤ M) (hz : InsideTol a D z) : InsideTol (a + M) D w :=
  ⟨fun i hi => by linarith [hz.1 i hi, (abs_le.1 (hA i hi)).2], fun hp => ⟨fun i hi => by linarith [(hz.2 hp).1 i hi, (abs_le.1 (hC i hi)).2], by
    obtain ⟨i, hi, h2⟩ := (hz.2 hp).2
    exact ⟨i, hi, by linarith [(abs_le.1 (hC i hi)).1]⟩⟩⟩

/-- the answers of the domains -/
theorem answer_between {fl : ℝ → ℝ} {u η : ℝ} (hr : Rounds fl u η) {n : ℕ} {D : Poly} (hD : D.Inv n) (hA : 0 < D.A.nr) {z : Vec ℝ} (hz : z.n = n) {E : ℝ}
    (hE : ∀ i < D.A.nr, rowErr u η D.A D.b z.e i ≤ E) (hE' : ∀ i < D.C.nr, rowErr u η D.C D.d z.e i ≤ E) {ans : Prop} (h : Fl.Contains fl D z 1e-7 ans) :
    (ans → InsideTol (1e-7 + E) D z.e) ∧ (InsideTol (1e-7 - E) D z.e → ans) := by
  obtain ⟨h1, h2⟩ := C163 fl u η hr n D hD hA z hz 1e-7 E hE hE' ans h
  obtain ⟨r, r1, r2⟩ := contains_inside hD hA z hz (1e-7 + E)
  obtain ⟨s, s1, s2⟩ := contains_inside hD hA z hz (1e-7 - E)
  refine ⟨fun ha => ?_, fun hi => h2 (by rw [s1, s2.2 hi])⟩
  have := h1 ha
  rw [r1] at this
  exact r2.1 (by cases this; rfl)

theorem rowErr_nonneg {u η : ℝ} (hu : 0 ≤ u) (hη : 0 ≤ η) (A : Mat ℝ) (b : Vec ℝ) (x : ℕ → ℝ) (i : ℕ) : 0 ≤ rowErr u η A b x i := by
  have : 1 ≤ (1 + u) ^ (A.nc + 1) := one_le_pow₀ (by linarith)
  have h1 : 0 ≤ ∑ j ∈ range A.nc, |A.e i j * x j| := Finset.sum_nonneg fun _ _ => abs_nonneg _
  unfold rowErr
  have h2 : 0 ≤ (1 + u) ^ (A.nc + 1) - 1 := by linarith
  positivity

/-- the answers that `get_mode` uses decide the mode -/
theorem mode_of_answers {P : PWA} (hP : PwaOk P) {x v : Vec ℝ} (hx : x.n = P.nx) (hv : v.n = P.nu) {ans : ℕ → Prop}
    (h : ∀ j D, P.domains[j]? = some D → (ans j ↔ InsideTol 1e-7 D (x.append v).e)) {r : Option ℕ}
    (hr : match r with
      | some m => m < P.domains.length ∧ ans m ∧ ∀ j < m, ¬ ans j
      | none => ∀ j < P.domains.length, ¬ ans j) : P.get_mode x v = .ok r := by
  have hget : ∀ j < P.domains.length, ∃ D, P.domains[j]? = some D := fun j hj => ⟨_, List.getElem?_eq_getElem hj⟩
  rcases get_mode_ok hP hx hv with ⟨h1, h2⟩ | ⟨m, h1, h2⟩
  · cases r with
    | none => exact h1
    | some m =>
      obtain ⟨r1, r2, r3⟩ := hr
      obtain ⟨D, hD⟩ := hget m r1
      exact absurd ⟨⟨D, hD, (h m D hD).1 r2⟩, fun k hk D' hD' hi => r3 k hk ((h k D' hD').2 hi)⟩ (h2 m)
  · obtain ⟨⟨D, hD, hin⟩, -⟩ := id h2
    have hm : m < P.domains.length := (List.getElem?_eq_some_iff.1 hD).1
    cases r with
    | none => exact absurd ((h m D hD).2 hin) (hr m hm)
    | some l =>
      obtain ⟨r1, r2, r3⟩ := hr
      obtain ⟨D', hD'⟩ := hget l r1
      have : FirstMode P x v l := ⟨⟨D', hD', (h l D' hD').1 r2⟩, fun k hk D'' hD'' hi => r3 k hk ((h k D'' hD'').2 hi)⟩
      rw [h1, h2.unique this]

/-- a rounded `get_mode` at a state near `x` finds the mode of `x`, if `x` is far enough from the thresholds -/
theorem mode_near {fl : ℝ → ℝ} {u η : ℝ} (hr : Rounds fl u η) {P : PWA} (hP : PwaOk P) {x y v : Vec ℝ} (hx : x.n = P.nx) (hy : y.n = P.nx) (hv : v.n = P.nu) {e E ρ : ℝ}
    (he : ∀ i < P.nx, |y.e i - x.e i| ≤ e) (he0 : 0 ≤ e) (hρ0 : 0 ≤ ρ) (hE : RowErrs P u η (y.append v).e E)
    (hρ : ∀ D ∈ P.domains, (∀ i < D.A.nr, ∑ j ∈ range P.nx, |D.A.e i j| ≤ ρ) ∧ ∀ i < D.C.nr, ∑ j ∈ range P.nx, |D.C.e i j| ≤ ρ)
    (hc : ∀ D ∈ P.domains, ClearOf (ρ * e + E) D (x.append v).e) {r : Option ℕ} (hm : Fl.GetMode fl P y v r) : P.get_mode x v = .ok r := by
  obtain ⟨ans, h1, h2⟩ := hm
  refine mode_of_answers hP hx hv (fun j D hD => ?_) h2
  have hmem := List.mem_of_getElem? hD
  obtain ⟨hInv, hA⟩ := hP.dom D hmem
  have hzn : (y.append v).n = P.nx + P.nu := by rw [Vec.append_n, hy, hv]
  obtain ⟨a1, a2⟩ := answer_between hr hInv hA hzn (hE D hmem).1 (hE D hmem).2 (h1 j D hD)
  have hE0 : 0 ≤ E := (rowErr_nonneg hr.u0 hr.η0 _ _ _ _).trans ((hE D hmem).1 0 hA)
  have hM : 0 ≤ ρ * e := mul_nonneg hρ0 he0
  have hrow : ∀ (A : Mat ℝ) (i : ℕ), A.nc = P.nx + P.nu → ∑ j ∈ range P.nx, |A.e i j| ≤ ρ → |rowVal A i (y.append v).e - rowVal A i (x.append v).e| ≤ ρ * e := by
    intro A i hA hs
    unfold rowVal
    rw [hA, Finset.sum_range_add, Finset.sum_range_add]
    have e1 : ∀ j, A.e i (P.nx + j) * (y.append v).e (P.nx + j) = A.e i (P.nx + j) * (x.append v).e (P.nx + j) := fun j => by
      rw [show (y.append v).e (P.nx + j) = v.e j by rw [← hy, Vec.append_e_add], show (x.append v).e (P.nx + j) = v.e j by rw [← hx, Vec.append_e_add]]
    simp only [e1, add_sub_add_right_eq_sub]
    rw [← Finset.sum_sub_distrib]
    refine (Finset.abs_sum_le_sum_abs _ _).trans ((Finset.sum_le_sum fun j hj => ?_).trans ((Finset.sum_mul _ _ _).symm.le.trans (mul_le_mul_of_nonneg_right hs he0)))
    have hj := Finset.mem_range.1 hj
    rw [Vec.append_e_lt _ _ (by omega), Vec.append_e_lt _ _ (by omega), ← mul_sub, abs_mul]
    exact mul_le_mul_of_nonneg_left (he j hj) (abs_nonneg _)
  have rA := fun i hi => hrow D.A i hInv.1 ((hρ D hmem).1 i hi)
  have rC := fun i hi => hrow D.C i hInv.2.2.1 ((hρ D hmem).2 i hi)
  constructor
  · intro ha
    have := InsideTol.near (w := (x.append v).e) (fun i hi => by rw [abs_sub_comm]; exact rA i hi) (fun i hi => by rw [abs_sub_comm]; exact rC i hi) (a1 ha)
    rcases hc D hmem with h | h
    · exact h.mono (by linarith)
    · exact absurd (this.mono (by linarith)) h
  · intro hin
    rcases hc D hmem with h | h
    · exact a2 ((InsideTol.near rA rC h).mono (by linarith))
    · exact absurd (hin.mono (by linarith)) h

/-- some mode, or none, is found -/
theorem getMode_exists (fl : ℝ → ℝ) (P : PWA) (x v : Vec ℝ) : ∃ r, Fl.GetMode fl P x v r := by
  classical
  choose ans hans using fun D : Poly => contains_exists fl D (x.append v) 1e-7
  let a : ℕ → Prop := fun j => ∃ D, P.domains[j]? = some D ∧ ans D
  have ha : ∀ j D, P.domains[j]? = some D → Fl.Contains fl D (x.append v) 1e-7 (a j) := fun j D hD => by
    have : a j ↔ ans D := ⟨fun ⟨D', h1, h2⟩ => by rw [hD] at h1; cases h1; exact h2, fun h => ⟨D, hD, h⟩⟩
    rw [propext this]
    exact hans D
  by_cases hex : ∃ j, a j
  · refine ⟨some (Nat.find hex), a, ha, ?_, Nat.find_spec hex, fun j hj => Nat.find_min hex hj⟩
    obtain ⟨D, hD, -⟩ := Nat.find_spec hex
    exact (List.getElem?_eq_some_iff.1 hD).1
  · push Not at hex
    exact ⟨none, a, ha, fun j _ => hex j⟩

/-- C182: `get_mode` in floating point arithmetic, whatever the order of the sums, with rounding errors of the rows of at most `E`.  A mode that is found contains state and input up to `1e-7 + E`, and
no earlier mode contains them up to `1e-7 - E`; if none is found, no mode contains them up to `1e-7 - E`.  If state and input are not closer than `E` to the
threshold of a domain, the answer is the exact one. -/
theorem C182 (fl : ℝ → ℝ) (u η : ℝ) (hr : Rounds fl u η) (P : PWA) (hP : PwaOk P) (x v : Vec ℝ) (hx : x.n = P.nx) (hv : v.n = P.nu) (E : ℝ)
    (hE : RowErrs P u η (x.append v).e E) :
    (∀ m, Fl.GetMode fl P x v (some m) → (∃ D, P.domains[m]? = some D ∧ InsideTol (1e-7 + E) D (x.append v).e) ∧
      ∀ k < m, ∀ D, P.domains[k]? = some D → ¬ InsideTol (1e-7 - E) D (x.append v).e) ∧
    (Fl.GetMode fl P x v none → ∀ D ∈ P.domains, ¬ InsideTol (1e-7 - E) D (x.append v).e) ∧
    ((∀ D ∈ P.domains, ClearOf E D (x.append v).e) → ∀ r, Fl.GetMode fl P x v r → P.get_mode x v = .ok r) ∧
    ∃ r, Fl.GetMode fl P x v r := by
  have hzn : (x.append v).n = P.nx + P.nu := by rw [Vec.append_n, hx, hv]
  have hb : ∀ (ans : ℕ → Prop), (∀ j D, P.domains[j]? = some D → Fl.Contains fl D (x.append v) 1e-7 (ans j)) → ∀ j D, P.domains[j]? = some D →
      (ans j → InsideTol (1e-7 + E) D (x.append v).e) ∧ (InsideTol (1e-7 - E) D (x.append v).e → ans j) := fun ans h j D hD => by
    have hmem := List.mem_of_getElem? hD
    obtain ⟨hInv, hA⟩ := hP.dom D hmem
    exact answer_between hr hInv hA hzn (hE D hmem).1 (hE D hmem).2 (h j D hD)
  refine ⟨?_, ?_, fun hc r hm => ?_, ?_⟩
  · rintro m ⟨ans, h1, h2, h3, h4⟩
    refine ⟨⟨P.domains[m], List.getElem?_eq_getElem h2, (hb ans h1 m _ (List.getElem?_eq_getElem h2)).1 h3⟩, fun k hk D hD hin => h4 k hk ((hb ans h1 k D hD).2 hin)⟩
  · rintro ⟨ans, h1, h2⟩ D hD hin
    obtain ⟨j, hj, rfl⟩ := List.getElem_of_mem hD
    exact h2 j hj ((hb ans h1 j _ (List.getElem?_eq_getElem hj)).2 hin)
  · obtain ⟨ans, h1, h2⟩ := hm
    refine mode_of_answers hP hx hv (fun j D hD => ?_) h2
    have hmem := List.mem_of_getElem? hD
    have hE0 : 0 ≤ E := (rowErr_nonneg hr.u0 hr.η0 _ _ _ _).trans ((hE D hmem).1 0 (hP.dom D hmem).2)
    obtain ⟨a1, a2⟩ := hb ans h1 j D hD
    constructor
    · intro ha
      rcases hc D hmem with h | h
      · exact h.mono (by linarith)
      · exact absurd (a1 ha) h
    · intro hin
      rcases hc D hmem with h | h
      · exact a2 h
      · exact absurd (hin.mono (by linarith)) h
  · exact getMode_exists fl P x v

/-- the rounding error of one step of an affine system -/
theorem affStep_err {fl : ℝ → ℝ} {u η : ℝ} (hr : Rounds fl u η) {nx nu : ℕ} {S : AffineSystem} (hS : SystemShape nx nu S.A S.B S.c) {x v x' : ℕ → ℝ}
    (h : Fl.AffStep fl S x v x') {i : ℕ} (hi : i < nx) {T C : ℝ} (hT : ∑ j ∈ range nx, |S.A.e i j * x j| + ∑ j ∈ range nu, |S.B.e i j * v j| ≤ T) (hC : |S.c.e i| ≤ C) :
    |x' i - Spec.affine S.A S.B S.c x v i| ≤ (1 + u) * (stepRel u nx nu * T + stepAbs u η nx nu) + u * (T + C) + η := by
  obtain ⟨y, z, h1, h2, h3⟩ := h
  have e1 := step_err hr (S := ⟨S.A, S.B, nx, nu, none⟩) ⟨hS.1, hS.2.1, hS.2.2.1, hS.2.2.2.1, rfl⟩ (x := x) (v := v) (x' := fun i => fl (y i + z i)) ⟨y, z, h1, h2, fun _ _ => rfl⟩ hi
  have e2 : |fl (y i + z i) - (∑ j ∈ range nx, S.A.e i j * x j + ∑ j ∈ range nu, S.B.e i j * v j)| ≤ stepRel u nx nu * T + stepAbs u η nx nu :=
    e1.trans (by have := mul_le_mul_of_nonneg_left hT (stepRel_nonneg hr.u0 nx nu); linarith)
  rw [h3 i (by rw [hS.1]; exact hi)]
  unfold Spec.affine
  rw [hS.2.1, hS.2.2.2.1]
  refine Rounds.step hr ?_ (le_of_eq_of_le (by congr 1; ring) e2)
  have g1 := Finset.abs_sum_le_sum_abs (fun j => S.A.e i j * x j) (range nx)
  have g2 := Finset.abs_sum_le_sum_abs (fun j => S.B.e i j * v j) (range nu)
  have g3 := abs_add_le (∑ j ∈ range nx, S.A.e i j * x j) (∑ j ∈ range nu, S.B.e i j * v j)
  have g4 := abs_add_le (∑ j ∈ range nx, S.A.e i j * x j + ∑ j ∈ range nu, S.B.e i j * v j) (S.c.e i)
  linarith

/-- C183: `simulate` of a piecewise affine system in floating point arithmetic, whatever the order of the sums.  Let the exact simulation be possible, with states `xs` and modes `ms`.  The absolute row
sums of the `A` and `B` of all modes are at most `α` and `β`, the entries of the offsets at most `γ`, of the computed states and the inputs at most `X` and `U`; `δ` is the error of one
step.  Let the absolute row sums of the states in the domains be at most `ρ` and the rounding errors of the rows at most `E`.  If no state and input of the exact simulation is closer than
`ρ (1 + α + … + α^(t-1)) δ + E` to the threshold of a domain, the rounded simulation does not raise and finds the same modes, and its states differ from the exact ones by at most `(1 + α + … + α^(t-1)) δ`. -/
theorem C183 (fl : ℝ → ℝ) (u η : ℝ) (hr : Rounds fl u η) (P : PWA) (hP : PwaOk P) (x0 : Vec ℝ) (hx0 : x0.n = P.nx) (us : List (Vec ℝ)) (hus : ∀ v ∈ us, v.n = P.nu)
    (xs : List (Vec ℝ)) (ms : List ℕ) (hsim : P.simulate x0 us = .ok (xs, ms)) (y : ℕ → Vec ℝ) (k : ℕ → Option ℕ) (hrun : Fl.Run fl P x0 us y k)
    (α β γ X U ρ E δ : ℝ) (hα : ∀ S ∈ P.affine_systems, ∀ i < P.nx, ∑ j ∈ range P.nx, |S.A.e i j| ≤ α) (hβ : ∀ S ∈ P.affine_systems, ∀ i < P.nx, ∑ j ∈ range P.nu, |S.B.e i j| ≤ β)
    (hγ : ∀ S ∈ P.affine_systems, ∀ i < P.nx, |S.c.e i| ≤ γ) (hX : ∀ t < us.length, ∀ j < P.nx, |(y t).e j| ≤ X) (hU : ∀ v ∈ us, ∀ j < P.nu, |v.e j| ≤ U)
    (hα0 : 0 ≤ α) (hX0 : 0 ≤ X) (hU0 : 0 ≤ U) (hρ0 : 0 ≤ ρ) (hδ0 : 0 ≤ δ)
    (hδ : (1 + u) * (stepRel u P.nx P.nu * (α * X + β * U) + stepAbs u η P.nx P.nu) + u * (α * X + β * U + γ) + η ≤ δ)
    (hρ : ∀ D ∈ P.domains, (∀ i < D.A.nr, ∑ j ∈ range P.nx, |D.A.e i j| ≤ ρ) ∧ ∀ i < D.C.nr, ∑ j ∈ range P.nx, |D.C.e i j| ≤ ρ)
    (hE : ∀ t v, us[t]? = some v → RowErrs P u η ((y t).append v).e E)
    (hc : ∀ t x v, xs[t]? = some x → us[t]? = some v → ∀ D ∈ P.domains, ClearOf (ρ * ((∑ s ∈ range t, α ^ s) * δ) + E) D (x.append v).e) :
    (∀ t < us.length, k t = ms[t]?) ∧ ∀ t x, xs[t]? = some x → ∀ i < P.nx, |(y t).e i - x.e i| ≤ (∑ s ∈ range t, α ^ s) * δ := by
  have hPR := (C59 P hP x0 hx0 us hus).1 xs ms hsim
  have hlen := hPR.len
  have key : ∀ t x, xs[t]? = some x → (∀ i < P.nx, |(y t).e i - x.e i| ≤ (∑ s ∈ range t, α ^ s) * δ) → t < us.length → k t = ms[t]? := by
    intro t x hx he ht
    obtain ⟨v, hv⟩ : ∃ v, us[t]? = some v := ⟨_, List.getElem?_eq_getElem ht⟩
    obtain ⟨m, hm⟩ : ∃ m, ms[t]? = some m := ⟨_, List.getElem?_eq_getElem (by omega)⟩
    have hvn := hus v (List.mem_of_getElem? hv)
    have hxn : x.n = P.nx := (hPR.traj ⟨mat0, mat0, vec0, 0, 0⟩).2.2.1 x (List.mem_of_getElem? hx)
    have h1 := mode_near hr hP hxn (hrun.size t) hvn he (mul_nonneg (Finset.sum_nonneg fun _ _ => pow_nonneg hα0 _) hδ0) hρ0 (hE t v hv) hρ (hc t x v hx hv) (hrun.mode t v hv)
    have h2 := hPR.mode t x v m hx hv hm
    rw [hm]
    rcases get_mode_ok hP hxn hvn with ⟨g1, g2⟩ | ⟨l, g1, g2⟩
    · exact absurd h2 (g2 m)
    · rw [h1] at g1
      injection g1 with g1
      rw [g1, g2.unique h2]
  have herr : ∀ t x, xs[t]? = some x → ∀ i < P.nx, |(y t).e i - x.e i| ≤ (∑ s ∈ range t, α ^ s) * δ := by
    intro t
    induction t with
    | zero =>
      intro x hx i hi
      rw [(hPR.traj ⟨mat0, mat0, vec0, 0, 0⟩).2.1] at hx
      cases hx
      rw [hrun.start i hi]
      simp
    | succ t ih =>
      intro x hx i hi
      have hl := (hPR.traj ⟨mat0, mat0, vec0, 0, 0⟩).1
      have ht : t < us.length := by
        have := (List.getElem?_eq_some_iff.1 hx).1
        omega
      obtain ⟨w, hw⟩ : ∃ w, xs[t]? = some w := ⟨_, List.getElem?_eq_getElem (by omega)⟩
      obtain ⟨v, hv⟩ : ∃ v, us[t]? = some v := ⟨_, List.getElem?_eq_getElem ht⟩
      obtain ⟨m, hm⟩ : ∃ m, ms[t]? = some m := ⟨_, List.getElem?_eq_getElem (by omega)⟩
      have hk : k t = some m := (key t w hw (ih w hw) ht).trans hm
      have hmlt := (hPR.mode t w v m hw hv hm).lt hP
      have hSget : P.affine_systems[m]? = some P.affine_systems[m] := List.getElem?_eq_getElem hmlt
      have hSm : P.affine_systems[m] ∈ P.affine_systems := List.getElem_mem hmlt
      have hvm : v ∈ us := List.mem_of_getElem? hv
      have hstep := hrun.step t v m _ hv hk hSget
      have e1 : x.e i = Spec.affine P.affine_systems[m].A P.affine_systems[m].B P.affine_systems[m].c w.e v.e i := by
        have := (hPR.traj P.affine_systems[m]).2.2.2 t w x v hw hx hv i hi
        have e0 : ms.getD t 0 = m := by rw [List.getD_eq_getElem?_getD, hm]; rfl
        simp only [e0, List.getD_eq_getElem _ _ hmlt] at this
        exact this
      generalize P.affine_systems[m] = S at *
      have hS := hP.sys S hSm
      have b1 : ∑ j ∈ range P.nx, |S.A.e i j * (y t).e j| ≤ α * X := by
        refine (Finset.sum_le_sum fun j hj => ?_).trans ((Finset.sum_mul _ _ _).symm.le.trans (mul_le_mul_of_nonneg_right (hα S hSm i hi) hX0))
        rw [abs_mul]
        exact mul_le_mul_of_nonneg_left (hX t ht j (mem_range.1 hj)) (abs_nonneg _)
      have b2 : ∑ j ∈ range P.nu, |S.B.e i j * v.e j| ≤ β * U := by
        refine (Finset.sum_le_sum fun j hj => ?_).trans ((Finset.sum_mul _ _ _).symm.le.trans (mul_le_mul_of_nonneg_right (hβ S hSm i hi) hU0))
        rw [abs_mul]
        exact mul_le_mul_of_nonneg_left (hU v hvm j (mem_range.1 hj)) (abs_nonneg _)
      have e2 := (affStep_err hr hS hstep hi (add_le_add b1 b2) (hγ S hSm i hi)).trans hδ
      have e4 : |∑ j ∈ range P.nx, S.A.e i j * (y t).e j - ∑ j ∈ range P.nx, S.A.e i j * w.e j| ≤ α * ((∑ s ∈ range t, α ^ s) * δ) := by
        rw [← Finset.sum_sub_distrib]
        refine (Finset.abs_sum_le_sum_abs _ _).trans ((Finset.sum_le_sum fun j hj => ?_).trans ((Finset.sum_mul _ _ _).symm.le.trans
          (mul_le_mul_of_nonneg_right (hα S hSm i hi) ((abs_nonneg _).trans (ih w hw i hi)))))
        rw [← mul_sub, abs_mul]
        exact mul_le_mul_of_nonneg_left (ih w hw j (mem_range.1 hj)) (abs_nonneg _)
      have e5 : ∑ s ∈ range t, α ^ (s + 1) = α * ∑ s ∈ range t, α ^ s := by
        rw [Finset.mul_sum]
        exact Finset.sum_congr rfl fun s _ => pow_succ' _ _
      rw [Finset.sum_range_succ', pow_zero, e5, e1]
      have e6 : Spec.affine S.A S.B S.c (y t).e v.e i - Spec.affine S.A S.B S.c w.e v.e i
          = ∑ j ∈ range P.nx, S.A.e i j * (y t).e j - ∑ j ∈ range P.nx, S.A.e i j * w.e j := by
        unfold Spec.affine
        rw [hS.2.1]
        ring
      have e7 := abs_add_le ((y (t + 1)).e i - Spec.affine S.A S.B S.c (y t).e v.e i) (Spec.affine S.A S.B S.c (y t).e v.e i - Spec.affine S.A S.B S.c w.e v.e i)
      rw [sub_add_sub_cancel, e6] at e7
      have e8 : (α * ∑ s ∈ range t, α ^ s + 1) * δ = α * ((∑ s ∈ range t, α ^ s) * δ) + δ := by ring
      rw [e8]
      linarith
  refine ⟨fun t ht => ?_, herr⟩
  have hl := (hPR.traj ⟨mat0, mat0, vec0, 0, 0⟩).1
  obtain ⟨w, hw⟩ : ∃ w, xs[t]? = some w := ⟨_, List.getElem?_eq_getElem (by omega)⟩
  exact key t w hw (herr t w hw) ht

/-- some step is computed -/
theorem affStep_exists (fl : ℝ → ℝ) (S : AffineSystem) (x v : ℕ → ℝ) : ∃ x', Fl.AffStep fl S x v x' := by
  choose y hy using fun i => dotVal_exists fl (S.A.e i) x S.A.nc
  choose z hz using fun i => dotVal_exists fl (S.B.e i) v S.B.nc
  exact ⟨fun i => fl (fl (y i + z i) + S.c.e i), y, z, fun i _ => hy i, fun i _ => hz i, fun _ _ => rfl⟩

/-- C183, the runs: a run is computed for every system, initial state and sequence of inputs -/
theorem run_exists (fl : ℝ → ℝ) (P : PWA) (x0 : Vec ℝ) (hx0 : x0.n = P.nx) (us : List (Vec ℝ)) : ∃ y k, Fl.Run fl P x0 us y k := by
  classical
  choose g hg using fun x v => getMode_exists fl P x v
  choose s hs using fun S x v => affStep_exists fl S x v
  let next : ℕ → Vec ℝ → Vec ℝ := fun t x => ⟨P.nx, fun i =>
    match us[t]? with
    | none => 0
    | some v =>
      match g x v with
      | none => 0
      | some m =>
        match P.affine_systems[m]? with
        | none => 0
        | some S => s S x.e v.e i⟩
  let y : ℕ → Vec ℝ := fun t => Nat.rec x0 (fun t x => next t x) t
  let k : ℕ → Option ℕ := fun t =>
    match us[t]? with
    | none => none
    | some v => g (y t) v
  refine ⟨y, k, fun t => ?_, fun i _ => rfl, fun t v hv => ?_, fun t v m S hv hk hS => ?_⟩
  · cases t with
    | zero => exact hx0
    | succ t => rfl
  · show Fl.GetMode fl P (y t) v (match us[t]? with
      | none => none
      | some v => g (y t) v)
    rw [hv]
    exact hg _ _
  · have hk' : g (y t) v = some m := by
      have : k t = g (y t) v := by
        show (match us[t]? with
          | none => none
          | some v => g (y t) v) = _
        rw [hv]
      rw [← this, hk]
    have : (y (t + 1)).e = s S (y t).e v.e := by
      show (next t (y t)).e = _
      simp only [next, hv, hk', hS]
    rw [this]
    exact hs S (y t).e v.e

/-- a half line of states, with one input: `a x ≤ 0` -/
noncomputable def halfDom (a : ℝ) : Poly := Poly.fresh ⟨1, 2, fun _ j => if j = 0 then a else 0⟩ ⟨1, fun _ => 0⟩ (Mat.zeros 0 2) (Vec.zeros 0)

/-- `x⁺ = -x/2 + u` for `x ≤ 0` and `x⁺ = x/2 + u - 1` for `x ≥ 0` -/
noncomputable def foldPwa : PWA :=
  ⟨1, 1, [⟨⟨1, 1, fun _ _ => -1 / 2⟩, one1, ⟨1, fun _ => 0⟩, 1, 1⟩, ⟨⟨1, 1, fun _ _ => 1 / 2⟩, one1, ⟨1, fun _ => -1⟩, 1, 1⟩], [halfDom 1, halfDom (-1)], 2⟩

theorem foldPwa_ok : PwaOk foldPwa := by
  refine ⟨rfl, fun S hS => ?_, fun D hD => ?_⟩
  · rcases List.mem_cons.1 hS with rfl | hS
    · exact ⟨rfl, rfl, rfl, rfl, rfl⟩
    · obtain rfl := List.mem_singleton.1 hS
      exact ⟨rfl, rfl, rfl, rfl, rfl⟩
  · rcases List.mem_cons.1 hD with rfl | hD
    · exact ⟨⟨rfl, rfl, rfl, rfl⟩, one_pos⟩
    · obtain rfl := List.mem_singleton.1 hD
      exact ⟨⟨rfl, rfl, rfl, rfl⟩, one_pos⟩

theorem halfDom_inside (a tol x v : ℝ) : InsideTol tol (halfDom a) ((⟨1, fun _ => x⟩ : Vec ℝ).append ⟨1, fun _ => v⟩).e ↔ a * x ≤ tol := by
  have e : rowVal (halfDom a).A 0 ((⟨1, fun _ => x⟩ : Vec ℝ).append ⟨1, fun _ => v⟩).e = a * x := by
    simp [rowVal, halfDom, Poly.fresh, Vec.append, Finset.sum_range_succ]
  constructor
  · intro h
    have := h.1 0 one_pos
    rw [e] at this
    simpa [halfDom, Poly.fresh] using this
  · intro h
    refine ⟨fun i hi => ?_, fun hC => absurd hC (by simp [halfDom, Poly.fresh, Mat.zeros])⟩
    obtain rfl : i = 0 := by have : i < 1 := hi; omega
    rw [e]
    simpa [halfDom, Poly.fresh] using h

/-- in double precision the system above is simulated from 1 with the input 0: every rounded simulation finds the second mode, and the state after the step is within `1e-15` of `-1/2` -/
example : ∃ xs ms, foldPwa.simulate ⟨1, fun _ => 1⟩ [⟨1, fun _ => 0⟩] = .ok (xs, ms) ∧ ms = [1] ∧
    (∃ y k, Fl.Run (binary 52) foldPwa ⟨1, fun _ => 1⟩ [⟨1, fun _ => 0⟩] y k) ∧
    ∀ y k, Fl.Run (binary 52) foldPwa ⟨1, fun _ => 1⟩ [⟨1, fun _ => 0⟩] y k → k 0 = some 1 ∧ |(y 1).e 0 + 1 / 2| ≤ 1e-15 := by
  have hus : ∀ v ∈ [(⟨1, fun _ => 0⟩ : Vec ℝ)], v.n = foldPwa.nu := fun v hv => by obtain rfl := List.mem_singleton.1 hv; rfl
  have hfm : FirstMode foldPwa ⟨1, fun _ => 1⟩ ⟨1, fun _ => 0⟩ 1 := by
    refine ⟨⟨halfDom (-1), rfl, (halfDom_inside _ _ _ _).2 (by norm_num)⟩, fun k hk D hD => ?_⟩
    obtain rfl : k = 0 := by omega
    cases hD
    rw [halfDom_inside]
    norm_num
  obtain ⟨xs, ms, hsim, hms, hxs0, hxs1⟩ : ∃ xs ms, foldPwa.simulate ⟨1, fun _ => 1⟩ [⟨1, fun _ => 0⟩] = .ok (xs, ms) ∧ ms = [1] ∧ xs[0]? = some ⟨1, fun _ => 1⟩ ∧
      ∃ x : Vec ℝ, xs[1]? = some x ∧ x.e 0 = -1 / 2 := by
    have hmode : foldPwa.get_mode ⟨1, fun _ => 1⟩ ⟨1, fun _ => 0⟩ = .ok (some 1) := by
      rcases get_mode_ok foldPwa_ok (x := ⟨1, fun _ => 1⟩) (u := ⟨1, fun _ => 0⟩) rfl rfl with ⟨-, h2⟩ | ⟨m, h1, h2⟩
      · exact absurd hfm (h2 1)
      · rw [h1, h2.unique hfm]
    obtain ⟨z, hs, hz⟩ : ∃ z : Vec ℝ, foldPwa.simulate ⟨1, fun _ => 1⟩ [⟨1, fun _ => 0⟩] = .ok ([⟨1, fun _ => 1⟩, z], [1]) ∧ z.e 0 = -1 / 2 := by
      refine ⟨((((⟨1, 1, fun _ _ => 1 / 2⟩ : Mat ℝ).mulVec ⟨1, fun _ => 1⟩).add (one1.mulVec ⟨1, fun _ => 0⟩)).add ⟨1, fun _ => -1⟩), ?_, by simp [Vec.add, Mat.mulVec, one1]; norm_num⟩
      show foldPwa.simulateFrom _ _ = _
      rw [PWA.simulateFrom, hmode, Py.ok_bind]
      rfl
    exact ⟨_, _, hs, rfl, rfl, z, rfl, hz⟩
  have hz := fun v => (halfDom_inside 1 (1e-7 + v) 1 0)
  refine ⟨xs, ms, hsim, hms, run_exists _ _ _ rfl _, fun y k hrun => ?_⟩
  have hy0 : (y 0).e 0 = 1 := hrun.start 0 one_pos
  have key := C183 (binary 52) _ _ (binary_rounds 52) foldPwa foldPwa_ok ⟨1, fun _ => 1⟩ rfl [⟨1, fun _ => 0⟩] hus xs ms hsim y k hrun (1 / 2) 1 1 1 0 1 1e-8 1e-15
    (fun S hS i _ => by
      rcases List.mem_cons.1 hS with rfl | hS
      · simp [foldPwa, Finset.sum_range_succ]; norm_num [abs_of_neg]
      · obtain rfl := List.mem_singleton.1 hS
        simp [foldPwa, Finset.sum_range_succ])
    (fun S hS i _ => by
      rcases List.mem_cons.1 hS with rfl | hS
      · simp [foldPwa, one1, Finset.sum_range_succ]
      · obtain rfl := List.mem_singleton.1 hS
        simp [foldPwa, one1, Finset.sum_range_succ])
    (fun S hS i _ => by
      rcases List.mem_cons.1 hS with rfl | hS
      · simp
      · obtain rfl := List.mem_singleton.1 hS
        simp)
    (fun t ht j hj => by
      obtain rfl : t = 0 := by simpa using ht
      obtain rfl : j = 0 := by have : j < 1 := hj; omega
      rw [hy0]; simp)
    (fun v hv j _ => by obtain rfl := List.mem_singleton.1 hv; simp)
    (by norm_num) (by norm_num) (by norm_num) (by norm_num) (by norm_num)
    (by
      have e1 : foldPwa.nx = 1 := rfl
      have e2 : foldPwa.nu = 1 := rfl
      rw [e1, e2]
      norm_num [stepRel, stepAbs])
    (fun D hD => by
      rcases List.mem_cons.1 hD with rfl | hD
      · exact ⟨fun i _ => by simp [halfDom, Poly.fresh, foldPwa, Finset.sum_range_succ], fun i hi => absurd hi (by simp [halfDom, Poly.fresh, Mat.zeros])⟩
      · obtain rfl := List.mem_singleton.1 hD
        exact ⟨fun i _ => by simp [halfDom, Poly.fresh, foldPwa, Finset.sum_range_succ], fun i hi => absurd hi (by simp [halfDom, Poly.fresh, Mat.zeros])⟩)
    (fun t v hv D hD => by
      have ht : t = 0 := by
        have := (List.getElem?_eq_some_iff.1 hv).1
        simpa using this
      subst ht
      have hn : (y 0).n = 1 := hrun.size 0
      refine ⟨fun i hi => ?_, fun i hi => ?_⟩
      · rcases List.mem_cons.1 hD with rfl | hD
        · norm_num [rowErr, halfDom, Poly.fresh, Vec.append, Finset.sum_range_succ, hn, hy0]
        · obtain rfl := List.mem_singleton.1 hD
          norm_num [rowErr, halfDom, Poly.fresh, Vec.append, Finset.sum_range_succ, hn, hy0]
      · rcases List.mem_cons.1 hD with rfl | hD
        · exact absurd hi (by simp [halfDom, Poly.fresh, Mat.zeros])
        · obtain rfl := List.mem_singleton.1 hD
          exact absurd hi (by simp [halfDom, Poly.fresh, Mat.zeros]))
    (fun t x v hx hv D hD => by
      have ht : t = 0 := by
        have := (List.getElem?_eq_some_iff.1 hv).1
        simpa using this
      subst ht
      rw [hxs0] at hx
      cases hx
      cases hv
      rcases List.mem_cons.1 hD with rfl | hD
      · right
        rw [halfDom_inside]
        norm_num
      · obtain rfl := List.mem_singleton.1 hD
        left
        rw [halfDom_inside]
        norm_num)
  obtain ⟨x, hx1, hx2⟩ := hxs1
  have k1 := key.1 0 (by simp)
  have k2 := key.2 1 x hx1 0 one_pos
  rw [hms] at k1
  refine ⟨k1, ?_⟩
  rw [hx2] at k2
  norm_num at k2 ⊢
  exact k2

end Verif.Props
