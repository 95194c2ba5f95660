import Verif.Props.McaisTermination
import Verif.Props.Voronoi

/- What `mcais` and `constrained_voronoi` reject: C133 and C134 of properties.jsonl. -/
namespace Verif.Props
open Dyn Spec Finset

theorem mcais_of_checks {L : Lib} {A : Mat ℝ} {X : Poly} {e : PyErr} (h : mcaisChecks L A X = .error e) (fuel : ℕ) :
    mcais L A X fuel = .error e := by
  unfold mcais mcaisBefore
  rw [h]; rfl

/-- the matrix has an eigenvalue outside of the unit circle -/
def Unstable (n : ℕ) (A : Mat ℝ) : Prop :=
  ∃ (l : ℂ) (v : ℕ → ℂ), (∃ i < n, v i ≠ 0) ∧ (∀ i < n, ∑ j ∈ range n, (A.e i j : ℂ) * v j = l * v i) ∧ 1 < ‖l‖

/-- C133: `mcais` raises `LinAlgError` for a matrix that is not square, and `ValueError` for an eigenvalue outside of the unit circle, for a
polyhedron without inequalities or from which the origin is more than the tolerance away, for a polyhedron that is not bounded, and for a matrix
without entries.  For all other matrices and polyhedra that contain the origin it does not raise, whatever the number of iterations. -/
theorem C133 (L : Lib) (hL : LibSpec L) :
    (∀ (A : Mat ℝ) (X : Poly) fuel, A.nr ≠ A.nc → mcais L A X fuel = .error .linAlgError) ∧
    (∀ (A : Mat ℝ) (X : Poly) fuel, A.nr = 0 → A.nc = 0 → mcais L A X fuel = .error .valueError) ∧
    ∀ n > 0, ∀ (A : Mat ℝ) (X : Poly), A.nr = n → A.nc = n → X.Inv n → X.C.nr = 0 → X.EmptyOk L → X._bounded = none →
      (∀ fuel, Unstable n A → mcais L A X fuel = .error .valueError) ∧
      (∀ fuel, X.A.nr = 0 → mcais L A X fuel = .error .valueError) ∧
      (∀ fuel, (∃ i < X.A.nr, X.b.e i < -1e-7) → mcais L A X fuel = .error .valueError) ∧
      (∀ fuel, (X.Mem fun _ => 0) → ¬ IsBounded n X.A X.b X.C X.d → WellScaled 2e-7 n X.A X.C → mcais L A X fuel = .error .valueError) ∧
      (¬ Unstable n A → (X.Mem fun _ => 0) → IsBounded n X.A X.b X.C X.d → ∀ fuel, ∃ O, mcais L A X fuel = .ok O) := by
  refine ⟨fun A X fuel h => mcais_of_checks (by unfold mcaisChecks; exact if_pos h) fuel,
    fun A X fuel h1 h2 => mcais_of_checks (by unfold mcaisChecks; rw [if_neg (by omega), if_pos h1]) fuel, ?_⟩
  intro n hn A X h1 h2 hX hC hE hB
  have hu : HasEigAboveOne A ↔ Unstable n A := by unfold HasEigAboveOne Unstable; rw [h1]
  have hstart : ¬ Unstable n A → mcaisChecks L A X = (X.contains (Vec.zeros X.A.nc) >>= fun c => if c = false then .error .valueError
      else match Poly.bounded L X with
      | (.error e, _) => .error e
      | (.ok false, _) => .error .valueError
      | (.ok true, X') => .ok X') := fun h => by
    unfold mcaisChecks
    rw [if_neg (by omega), if_neg (by omega), if_neg (fun k => h (hu.1 k))]
    rfl
  have hun : ∀ fuel, Unstable n A → mcais L A X fuel = .error .valueError := fun fuel h =>
    mcais_of_checks (by unfold mcaisChecks; rw [if_neg (by omega), if_neg (by omega), if_pos (hu.2 h)]) fuel
  have hno : ∀ fuel, X.A.nr = 0 → mcais L A X fuel = .error .valueError := fun fuel h0 => by
    by_cases hs : Unstable n A
    · exact hun fuel hs
    refine mcais_of_checks ?_ fuel
    rw [hstart hs]
    have : X.contains (Vec.zeros X.A.nc) = .error .valueError := by
      unfold Poly.contains
      have k1 : np.dotMV X.A (Vec.zeros X.A.nc) = .ok ⟨X.A.nr, fun i => ∑ j ∈ range X.A.nc, X.A.e i j * (0 : ℝ)⟩ := if_pos rfl
      rw [k1, Py.ok_bind]
      have k2 : ∃ e, np.subV (⟨X.A.nr, fun i => ∑ j ∈ range X.A.nc, X.A.e i j * (0 : ℝ)⟩ : Vec ℝ) X.b = .ok e ∧ e.n = 0 :=
        ⟨_, if_pos hX.2.1.symm, h0⟩
      obtain ⟨e, k2, k3⟩ := k2
      rw [k2, Py.ok_bind]
      have k4 : np.max e = .error .valueError := by unfold np.max; exact dif_pos k3
      rw [k4]; rfl
    rw [this]; rfl
  refine ⟨hun, hno, fun fuel h0 => ?_, fun fuel h0 hb hw => ?_, fun hs h0 hb fuel => ?_⟩
  · by_cases hs : Unstable n A
    · exact hun fuel hs
    refine mcais_of_checks ?_ fuel
    obtain ⟨i, hi, hbi⟩ := h0
    obtain ⟨c, k1, k2⟩ := contains_iff hX (by omega) (Vec.zeros X.A.nc) hX.1 1e-7
    have : c = false := by
      by_contra hc
      have := (k2.1 (by simpa using hc)).1 i hi
      simp only [Vec.zeros, mul_zero, Finset.sum_const_zero] at this
      linarith
    subst this
    rw [hstart hs, k1]; rfl
  · by_cases hs : Unstable n A
    · exact hun fuel hs
    by_cases hr : X.A.nr = 0
    · exact hno fuel hr
    refine mcais_of_checks ?_ fuel
    obtain ⟨c, k1, k2⟩ := contains_iff hX (by omega) (Vec.zeros X.A.nc) hX.1 1e-7
    obtain ⟨r, q, k3, k4⟩ := (C17 L hL n X hX hE hB).1 (.inl (by omega)) hn (near_zero h0) hw
    have : r = false := by
      by_contra hc
      exact hb (k4.1 (by simpa using hc))
    subst this
    rw [hstart hs, k1, Py.ok_bind]
    split_ifs
    · rfl
    · simp only [k3]
  · have hd : McaisData L n A X := ⟨h1, h2, hX, hC, h0, hb, hE, hn⟩
    obtain ⟨X', hX'⟩ := checks_ok hL hd hn (.inl hB) (fun k => hs (hu.1 k))
    rcases (C54 L hL n A X hd).1 X' fuel hX' with h | ⟨O, h⟩
    · exact ⟨_, h⟩
    · exact ⟨_, h⟩

/-- the hypotheses of C133 hold for the square and the matrix that doubles the state, which is rejected, and for the half plane `x 0 ≤ 1` and the
matrix that halves the state, which is rejected as well -/
example (L : Lib) (hL : LibSpec L) (fuel : ℕ) : mcais L ⟨2, 2, fun i j => if i = j then 2 else 0⟩ square fuel = .error .valueError ∧
    mcais L ⟨2, 2, fun i j => if i = j then 1 / 2 else 0⟩
      (Poly.fresh ⟨1, 2, fun _ j => if j = 0 then 1 else 0⟩ ⟨1, fun _ => 1⟩ (Mat.zeros 0 2) (Vec.zeros 0)) fuel = .error .valueError := by
  constructor
  · have hd : McaisData L 2 ⟨2, 2, fun i j => if i = j then 2 else 0⟩ square := square_data L rfl rfl
    refine ((C133 L hL).2.2 2 (by omega) _ square rfl rfl hd.inv rfl hd.empty_ok rfl).1 fuel ⟨2, fun i => if i = 0 then 1 else 0, ⟨0, by omega, by simp⟩, fun i hi => ?_, by simp⟩
    interval_cases i <;> simp
  · have hm : ∀ x : ℕ → ℝ, (Poly.fresh ⟨1, 2, fun _ j => if j = 0 then 1 else 0⟩ ⟨1, fun _ => 1⟩ (Mat.zeros 0 2) (Vec.zeros 0)).Mem x ↔ x 0 ≤ 1 := by
      intro x
      rw [mem_noeq rfl]
      show (∀ i < 1, ∑ j ∈ range 2, (if j = 0 then (1 : ℝ) else 0) * x j ≤ 1) ↔ _
      simp
    refine ((C133 L hL).2.2 2 (by omega) _ _ rfl rfl ⟨rfl, rfl, rfl, rfl⟩ rfl (fun e he => by cases he) rfl).2.2.2.1 fuel ((hm _).2 zero_le_one) ?_ ?_
    · rintro ⟨R, hR⟩
      have := hR (fun j => if j = 0 then 0 else |R| + 1) ((hm _).2 (by simp)) 1 (by omega)
      simp only [one_ne_zero, if_false] at this
      rw [abs_of_nonneg (by positivity)] at this
      linarith [le_abs_self R]
    · exact fun _ => ⟨fun j => if j = 0 then 0 else 1, ⟨fun i _ => by simp [Poly.fresh, Spec.rowVal, Finset.sum_range_succ], fun i hi => absurd hi (Nat.not_lt_zero i)⟩,
        ⟨1, by norm_num, by simp⟩, .inl fun i _ => by simp [Poly.fresh, Spec.rowVal, Finset.sum_range_succ]⟩

/-- C134: `constrained_voronoi` raises `ValueError` for an empty list, `AssertionError` for points of different sizes, and an exception for a single
point, whose cell would be the whole space. -/
theorem C134 (V : Voronoi.Vor) (hV : Voronoi.VorSpec V) (X : Option Poly) :
    Voronoi.constrained_voronoi V [] X = .error .valueError ∧
    (∀ points, (∃ p ∈ points, ∃ q ∈ points, p.n ≠ q.n) → Voronoi.constrained_voronoi V points X = .error .assertionError) ∧
    ∀ p, ∃ e, Voronoi.constrained_voronoi V [p] X = .error e := by
  refine ⟨rfl, ?_, fun p => ?_⟩
  · rintro (_ | ⟨p, ps⟩) ⟨a, ha, b, hb, hab⟩
    · exact absurd ha (by simp)
    · refine if_neg fun h => hab ?_
      have : ∀ q ∈ p :: ps, q.n = p.n := fun q hq => by
        rcases List.mem_cons.1 hq with rfl | hq
        · rfl
        · exact h q hq
      rw [this a ha, this b hb]
  · cases h : Voronoi.constrained_voronoi V [p] X with
    | error e => exact ⟨e, rfl⟩
    | ok cells =>
      exfalso
      have hc : Voronoi.coordinates p [] = [] := by
        unfold Voronoi.coordinates
        refine List.filter_eq_nil_iff.2 fun i _ => ?_
        simp [Voronoi.minL, Voronoi.maxL, Voronoi.isclose]
        positivity
      unfold Voronoi.constrained_voronoi at h
      dsimp only at h
      rw [if_pos (by simp), hc] at h
      obtain ⟨low, h1, h2⟩ := Py.bind_eq_ok h
      obtain ⟨vor, h3, -⟩ := Py.bind_eq_ok h2
      have hlow : low = [p.take []] := by
        have : ([p].mapM fun q => np.take q []) = .ok [p.take []] := mapM_ok fun q hq => if_pos (by simp)
        rw [this] at h1; injection h1 with h1; exact h1.symm
      subst hlow
      unfold Voronoi.partition at h3
      rw [if_neg (by simp)] at h3
      unfold Voronoi.voronoi_nd at h3
      rw [show List.range [p.take []].length = [0] from rfl, List.mapM_cons] at h3
      obtain ⟨c, h4, -⟩ := Py.bind_eq_ok h3
      obtain ⟨point, -, h5⟩ := Py.bind_eq_ok h4
      obtain ⟨rs, h6, h7⟩ := Py.bind_eq_ok h5
      have hrs : (rs.filter fun r => r.1 = 0 ∨ r.2 = 0) = [] := List.filter_eq_nil_iff.2 fun r hr => by
        obtain ⟨k1, k2, k3⟩ := hV.range 0 [p.take []] rs (by simp [Vec.take]) h6 r hr
        simp only [List.length_singleton] at k1 k2
        omega
      rw [hrs] at h7
      cases h7

/-- the points `0` of the line and `(0, 0)` of the plane have different sizes -/
example (V : Voronoi.Vor) (hV : Voronoi.VorSpec V) : Voronoi.constrained_voronoi V [onLine 0, inPlane 0 0] none = .error .assertionError :=
  (C134 V hV none).2.1 _ ⟨onLine 0, by simp, inPlane 0 0, by simp, by show (1 : ℕ) ≠ 2; omega⟩

end Verif.Props
