import Verif.Model.FeasibleSet
import Verif.Proofs.MpQP
import Verif.Props.ProjectionFalse

/- C46: feasible sets of multiparametric programs. -/
namespace Verif.Props
open Finset

/-- some input is feasible for the parameter -/
def HasFeas (nu nx : ℕ) (P : Spec.ParamQP) (x : ℕ → ℝ) : Prop := ∃ u, P.Feas nu nx u x

/-- the polyhedron of the pairs `(x, u)` -/
noncomputable def pairs (q : MpQP) : Poly := Poly.fresh (q.Ax.happ q.Au) q.b (Mat.zeros 0 (q.Ax.happ q.Au).nc) (Vec.zeros 0)

theorem pairs_row {q : MpQP} {nu nx : ℕ} (hs : q.data.Shape nu nx) (i : ℕ) (z : ℕ → ℝ) :
    Spec.rowVal (pairs q).A i z = q.data.lhs nu nx i (fun j => z (nx + j)) z := by
  have h1 : q.Ax.nc = nx := hs.Ax
  have h2 : q.Au.nc = nu := hs.Au
  show ∑ j ∈ range (q.Ax.nc + q.Au.nc), (q.Ax.happ q.Au).e i j * z j = _
  rw [sum_range_add, add_comm, h1, h2]
  refine congrArg₂ _ (sum_congr rfl fun j _ => ?_) (sum_congr rfl fun j hj => ?_)
  · rw [← h1, Mat.happ_e_add]; rfl
  · rw [Mat.happ_e_lt _ _ _ (by rw [h1]; exact mem_range.1 hj)]; rfl

theorem pairs_mem {q : MpQP} {nu nx : ℕ} (hs : q.data.Shape nu nx) (z : ℕ → ℝ) :
    Spec.InPoly (pairs q).A (pairs q).b (pairs q).C (pairs q).d z ↔ q.data.Feas nu nx (fun j => z (nx + j)) z := by
  have hr : q.Ax.nr = q.Au.nr := hs.rows
  refine ⟨fun h i hi => ?_, fun h => ⟨fun i hi => ?_, fun i hi => absurd hi (Nat.not_lt_zero i)⟩⟩
  · rw [← pairs_row hs]; exact h.1 i (by show i < q.Ax.nr; rw [hr]; exact hi)
  · refine (pairs_row hs i z).le.trans (h i (by show i < q.Au.nr; rw [← hr]; exact hi))

theorem feas_congr {P : Spec.ParamQP} {nu nx : ℕ} {u u' x x' : ℕ → ℝ} (hu : ∀ j < nu, u j = u' j) (hx : ∀ j < nx, x j = x' j)
    (h : P.Feas nu nx u x) : P.Feas nu nx u' x' := by
  intro i hi
  have : P.lhs nu nx i u' x' = P.lhs nu nx i u x := by
    unfold Spec.ParamQP.lhs
    exact congrArg₂ _ (sum_congr rfl fun j hj => by rw [hu j (mem_range.1 hj)]) (sum_congr rfl fun j hj => by rw [hx j (mem_range.1 hj)])
  rw [this]
  exact h i hi

/-- the point `(x, u)` -/
def glue (nx : ℕ) (x u : ℕ → ℝ) (j : ℕ) : ℝ := if j < nx then x j else u (j - nx)

theorem glue_lt {nx : ℕ} {x u : ℕ → ℝ} {j : ℕ} (h : j < nx) : glue nx x u j = x j := if_pos h
theorem glue_add {nx : ℕ} {x u : ℕ → ℝ} (j : ℕ) : glue nx x u (nx + j) = u j := by simp [glue]

theorem pairs_glue {q : MpQP} {nu nx : ℕ} (hs : q.data.Shape nu nx) {x u : ℕ → ℝ} (h : q.data.Feas nu nx u x) :
    Spec.InPoly (pairs q).A (pairs q).b (pairs q).C (pairs q).d (glue nx x u) :=
  (pairs_mem hs _).2 (feas_congr (fun j _ => (glue_add j).symm) (fun j hj => (glue_lt hj).symm) h)

theorem pairs_proj {q : MpQP} {nu nx : ℕ} (hs : q.data.Shape nu nx) (y : ℕ → ℝ) :
    Spec.InProj (pairs q).A (pairs q).b (pairs q).C (pairs q).d (List.range nx) y ↔ HasFeas nu nx q.data y := by
  constructor
  · rintro ⟨z, hz, hy⟩
    refine ⟨fun j => z (nx + j), feas_congr (fun _ _ => rfl) (fun j hj => ?_) ((pairs_mem hs z).1 hz)⟩
    rw [hy j (by simpa using hj), List.getD_eq_getElem _ _ (by simpa using hj), List.getElem_range]
  · rintro ⟨u, hu⟩
    refine ⟨glue nx y u, pairs_glue hs hu, fun k hk => ?_⟩
    have hk' : k < nx := by simpa using hk
    rw [List.getD_eq_getElem _ _ hk, List.getElem_range, glue_lt hk']

theorem pairs_inv {q : MpQP} {nu nx : ℕ} (hs : q.data.Shape nu nx) : (pairs q).Inv (nx + nu) := by
  have h1 : q.Ax.nc = nx := hs.Ax
  have h2 : q.Au.nc = nu := hs.Au
  have h3 : q.b.n = q.Au.nr := hs.b
  have h4 : q.Ax.nr = q.Au.nr := hs.rows
  exact ⟨by show q.Ax.nc + q.Au.nc = _; rw [h1, h2], by show q.b.n = q.Ax.nr; rw [h3, h4],
    by show q.Ax.nc + q.Au.nc = _; rw [h1, h2], rfl⟩

theorem feasible_run {q : MpQP} {nu nx : ℕ} (hs : q.data.Shape nu nx) (L : Lib) (Q : Qhull) (rand : List (Vec ℝ) → Vec ℝ) (fuel : ℕ) :
    MpQP.get_feasible_set L Q rand fuel q = (Poly.project_to L Q rand fuel (List.range nx) (pairs q)).1 := by
  have h1 : q.Ax.nc = nx := hs.Ax
  have h3 : q.b.n = q.Au.nr := hs.b
  have h4 : q.Ax.nr = q.Au.nr := hs.rows
  have k1 : np.hstack [q.Ax, q.Au] = .ok (q.Ax.happ q.Au) := if_pos h4
  have k2 : Poly.init (q.Ax.happ q.Au) (.d1 q.b) = .ok (pairs q) :=
    Poly.init_eq_ok.2 ⟨q.b, rfl, by show q.b.n = q.Ax.nr; rw [h3, h4], Or.inl ⟨rfl, rfl, rfl⟩⟩
  unfold MpQP.get_feasible_set
  rw [k1, Py.ok_bind, k2, Py.ok_bind, h1]

/-- a feasible pair that is not very far from the origin -/
def NearFeas (nu nx : ℕ) (P : Spec.ParamQP) : Prop :=
  ∃ u x, P.Feas nu nx u x ∧ ∑ j ∈ range nx, x j ^ 2 + ∑ j ∈ range nu, u j ^ 2 < 1 / (1e-7) ^ 2 - 1

theorem near_feas {q : MpQP} {nu nx : ℕ} (hs : q.data.Shape nu nx) :
    NearFeas nu nx q.data ↔ Spec.NearPoint (nx + nu) (pairs q).A (pairs q).b (pairs q).C (pairs q).d := by
  constructor
  · rintro ⟨u, x, h, hd⟩
    refine ⟨glue nx x u, pairs_glue hs h, ?_⟩
    rw [sum_range_add]
    refine lt_of_eq_of_lt (congrArg₂ _ (sum_congr rfl fun j hj => ?_) (sum_congr rfl fun j _ => ?_)) hd
    · rw [glue_lt (mem_range.1 hj)]
    · rw [glue_add]
  · rintro ⟨z, hz, hd⟩
    rw [sum_range_add] at hd
    exact ⟨_, z, (pairs_mem hs z).1 hz, hd⟩

/-- C46 (partial): for a program with consistent sizes, at least one parameter, bounded constraints and a feasible pair `(u, x)` of norm at most about
`1e7`: for every `x` in the set returned by `get_feasible_set` some `u` is feasible; every `x` with a feasible `u` violates the inequalities of the
set, which have unit normals, by at most `tol + nx (1e-8 + 1e-5) D`, where `D` bounds the differences of coordinates of such `x`; with one parameter
the set is exact.  The points stored with the set include its vertices; for two or more parameters it is not contained in a hyperplane.  It is returned for one parameter, or with enough fuel if the feasible parameters contain a box with sides of length `1e-7`.
Without a feasible pair of norm at most about `1e7` the call raises `ValueError`.
Missing: the bound by `tol` alone, which is false (`C46_false`). -/
theorem C46_partial (L : Lib) (hL : LibSpec L) (Q : Qhull) (hQ : QhullSpec Q) (rand : List (Vec ℝ) → Vec ℝ) (hr : RandSpec rand) (nu nx : ℕ) (q : MpQP)
    (hs : q.data.Shape nu nx) (fuel : ℕ) :
    (0 < nx → (∃ R, ∀ u x, q.data.Feas nu nx u x → (∀ j < nu, |u j| ≤ R) ∧ ∀ j < nx, |x j| ≤ R) → NearFeas nu nx q.data →
      (∀ S, q.get_feasible_set L Q rand fuel = .ok (some S) →
        S.Inv nx ∧ (∀ i < S.A.nr, ∑ j ∈ range nx, S.A.e i j ^ 2 = 1) ∧
        (∀ x, S.Mem x → ∃ u, q.data.Feas nu nx u x) ∧
        (∀ D, (∀ u x u' x', q.data.Feas nu nx u x → q.data.Feas nu nx u' x' → ∀ j < nx, |x j - x' j| ≤ D) →
          ∀ u x, q.data.Feas nu nx u x → Spec.EqHold S.C S.d x ∧ ∀ i < S.A.nr,
            Spec.rowVal S.A i x ≤ S.b.e i + 1e-7 + nx * (1e-8 + 1e-5) * D) ∧
        (nx = 1 → ∀ u x, q.data.Feas nu nx u x → S.Mem x) ∧
        (∃ vs, S._vertices = some vs ∧ Spec.Corners nx S.Mem vs) ∧ (2 ≤ nx → Spec.Thick nx S.Mem)) ∧
      (nx = 1 ∨ (2 * 10 ^ 8 + 1) ^ nx < fuel ∧
          (∃ (x0 : ℕ → ℝ) (ε : ℝ), 1e-7 ≤ 2 * ε ∧ ∀ x : ℕ → ℝ, (∀ j < nx, |x j - x0 j| ≤ ε) → ∃ u, q.data.Feas nu nx u x) →
        ∃ S, q.get_feasible_set L Q rand fuel = .ok (some S))) ∧
    (¬ NearFeas nu nx q.data → q.get_feasible_set L Q rand fuel = .error .valueError) := by
  rw [feasible_run hs]
  have hc : (pairs q).EmptyOk L := fun e h => by cases h
  refine ⟨fun hnx hbd hne => ?_, fun hne => ?_⟩
  · have hbd' : Spec.IsBounded (nx + nu) (pairs q).A (pairs q).b (pairs q).C (pairs q).d := by
      obtain ⟨R, hR⟩ := hbd
      refine ⟨R, fun z hz j hj => ?_⟩
      obtain ⟨h1, h2⟩ := hR _ _ ((pairs_mem hs z).1 hz)
      rcases lt_or_ge j nx with h | h
      · exact h2 j h
      · have := h1 (j - nx) (by omega)
        rwa [Nat.add_sub_cancel' h] at this
    have hlen : (List.range nx).length = nx := List.length_range
    have hne0 : List.range nx ≠ [] := by
      intro h
      have := congrArg List.length h
      rw [hlen] at this
      simp at this
      omega
    obtain ⟨h1, h2⟩ := C22_partial L hL Q hQ rand hr (nx + nu) (pairs q) (pairs_inv hs) hc (Or.inl rfl) ((near_feas hs).1 hne) hbd' rfl
      (List.range nx) hne0 (fun i hi => by have := List.mem_range.1 hi; omega) List.nodup_range fuel
    simp only [hlen, pairs_proj hs] at h1 h2
    constructor
    · intro S hS
      obtain ⟨-, -, -, -, k1, k2, k3, k4, k5, ⟨vs, k6, -, k7⟩, k8⟩ := h1 S _ (Prod.ext hS rfl)
      exact ⟨k1, k2, k3, fun D hD u x hx => k4 D (fun y y' ⟨u, hu⟩ ⟨u', hu'⟩ => hD u y u' y' hu hu') x ⟨u, hx⟩, fun h u x hx => k5 h x ⟨u, hx⟩,
        ⟨vs, k6, k7⟩, k8⟩
    · intro h
      obtain ⟨S, p', hS⟩ := h2 h
      exact ⟨S, by rw [hS]⟩
  · obtain ⟨p', h, -⟩ := (C88 L hL Q rand fuel (nx + nu) (pairs q) (pairs_inv hs) hc rfl (List.range nx)).1
      (by
        by_contra h0
        refine hne ((near_feas hs).2 ⟨fun _ => 0, ⟨fun i hi => absurd hi (by omega), fun i hi => absurd hi (by omega)⟩, by norm_num⟩))
      (Or.inl fun h => hne ((near_feas hs).2 h))
    rw [h]

/-- the parameters are in the pentagon and the input is in `[-1, 1]` -/
noncomputable def pentQP : Spec.ParamQP := ⟨⟨1, 1, fun _ _ => 1⟩, ⟨1, 2, fun _ _ => 0⟩, ⟨2, 2, fun _ _ => 0⟩, ⟨1, fun _ => 0⟩, ⟨2, fun _ => 0⟩, 0,
  ⟨7, 1, fun i _ => if i = 5 then 1 else if i = 6 then -1 else 0⟩, ⟨7, 2, fun i j => if i < 5 then pentagon.A.e i j else 0⟩,
  ⟨7, fun i => if i < 5 then pentagon.b.e i else 1⟩⟩

theorem pentQP_shape : pentQP.Shape 1 2 := by
  refine ⟨⟨rfl, rfl, fun _ _ _ _ => rfl, ?_⟩, rfl, rfl, rfl, rfl, rfl, rfl, rfl, rfl, rfl, rfl⟩
  rintro x ⟨i, hi, hx⟩
  have : i = 0 := by omega
  subst this
  have := mul_self_pos.2 hx
  simpa [pentQP] using this

theorem pentQP_feas (u x : ℕ → ℝ) : pentQP.Feas 1 2 u x ↔ Pent x ∧ |u 0| ≤ 1 := by
  rw [← pentagon_fs, abs_le]
  constructor
  · intro h
    refine ⟨fun i hi => ?_, ?_, ?_⟩
    · have hi : i < 5 := hi
      have := h i (by show i < 7; omega)
      show ∑ j ∈ range 2, _ ≤ _
      simpa [pentQP, Spec.ParamQP.lhs, hi, show i ≠ 5 by omega, show i ≠ 6 by omega] using this
    · have := h 6 (by show 6 < 7; norm_num)
      simp [pentQP, Spec.ParamQP.lhs] at this
      linarith
    · simpa [pentQP, Spec.ParamQP.lhs] using h 5 (by show 5 < 7; norm_num)
  · rintro ⟨h, h1, h2⟩ i hi
    have hi : i < 7 := hi
    by_cases h5 : i < 5
    · have : ∑ j ∈ range 2, pentagon.A.e i j * x j ≤ pentagon.b.e i := h i h5
      simpa [pentQP, Spec.ParamQP.lhs, h5, show i ≠ 5 by omega, show i ≠ 6 by omega] using this
    · have : i = 5 ∨ i = 6 := by omega
      rcases this with rfl | rfl
      · simpa [pentQP, Spec.ParamQP.lhs] using h2
      · simp [pentQP, Spec.ParamQP.lhs]
        linarith

theorem pentQP_bounded : ∃ R, ∀ u x, pentQP.Feas 1 2 u x → (∀ j < 1, |u j| ≤ R) ∧ ∀ j < 2, |x j| ≤ R := by
  refine ⟨2000, fun u x h => ?_⟩
  obtain ⟨h1, h2⟩ := (pentQP_feas u x).1 h
  obtain ⟨h3, h4⟩ := pent_bounded h1
  refine ⟨fun j hj => ?_, fun j hj => ?_⟩
  · obtain rfl : j = 0 := by omega
    linarith
  · interval_cases j
    · exact h3
    · exact h4

theorem pentQP_near : NearFeas 1 2 pentQP :=
  ⟨fun _ => 0, fun _ => 0, (pentQP_feas _ _).2 (by norm_num [Pent]), by norm_num⟩

/-- C46 (negation of the bound by `tol`): a program meets all the hypotheses of `C46_partial`, and in every run of `get_feasible_set` that returns some
parameter with a feasible input violates an inequality of the result by more than `10 tol`. -/
theorem C46_false : ∃ q : MpQP, q.Made ∧ q.data.Shape 1 2 ∧
    (∃ R, ∀ u x, q.data.Feas 1 2 u x → (∀ j < 1, |u j| ≤ R) ∧ ∀ j < 2, |x j| ≤ R) ∧ NearFeas 1 2 q.data ∧
    ∀ L, LibSpec L → ∀ Q, QhullSpec Q → ∀ rand, RandSpec rand →
      (∀ fuel S, q.get_feasible_set L Q rand fuel = .ok (some S) →
        ∃ u x, q.data.Feas 1 2 u x ∧ ∃ i < S.A.nr, S.b.e i + 1e-6 < Spec.rowVal S.A i x) ∧
      ∀ fuel, (2 * 10 ^ 8 + 1) ^ 2 < fuel → ∃ S, q.get_feasible_set L Q rand fuel = .ok (some S) := by
  obtain ⟨q, -, hm, hd⟩ := MpQP.init_made pentQP_shape
  have hs : q.data.Shape 1 2 := by rw [hd]; exact pentQP_shape
  have hbd : ∃ R, ∀ u x, q.data.Feas 1 2 u x → (∀ j < 1, |u j| ≤ R) ∧ ∀ j < 2, |x j| ≤ R := by rw [hd]; exact pentQP_bounded
  have hne : NearFeas 1 2 q.data := by rw [hd]; exact pentQP_near
  refine ⟨q, hm, hs, hbd, hne, fun L hL Q hQ rand hr => ⟨fun fuel S hS => ?_, fun fuel hf => ?_⟩⟩
  · refine ⟨fun _ => 0, fun j => if j = 0 then -500 else -1 - 0.9e-5, by rw [hd]; exact (pentQP_feas _ _).2 (by norm_num [Pent]), ?_⟩
    rw [feasible_run hs] at hS
    have hc : (pairs q).EmptyOk L := fun e h => by cases h
    have hnc : (pairs q).A.nc = 3 := by rw [(pairs_inv hs).1]
    have hproj : ∀ y, Shadow (pairs q).A (pairs q).b y ↔ Pent y := by
      intro y
      refine (Projection.pr_iff (pair_cols (by omega)) (by simp) y).trans (Iff.trans ?_ (pairs_proj hs y)) |>.trans ?_
      · exact ⟨fun ⟨x, h1, h2⟩ => ⟨x, ⟨h1, fun i hi => absurd hi (Nat.not_lt_zero i)⟩, h2⟩, fun ⟨x, h1, h2⟩ => ⟨x, h1.1, h2⟩⟩
      · unfold HasFeas
        rw [hd]
        exact ⟨fun ⟨u, hu⟩ => ((pentQP_feas u y).1 hu).1, fun h => ⟨fun _ => 0, (pentQP_feas _ y).2 ⟨h, by norm_num⟩⟩⟩
    have hbd' : Spec.IsBounded 3 (pairs q).A (pairs q).b (pairs q).C (pairs q).d := by
      obtain ⟨R, hR⟩ := hbd
      refine ⟨R, fun z hz j hj => ?_⟩
      obtain ⟨h1, h2⟩ := hR _ _ ((pairs_mem hs z).1 hz)
      interval_cases j
      · exact h2 0 (by norm_num)
      · exact h2 1 (by norm_num)
      · exact h1 0 (by norm_num)
    have hB : Projection.Body 2 (Projection.reordered (pairs q).A [0, 1]) (pairs q).b := by
      refine Projection.body_reordered (pair_cols (by omega)) (by simp) (by simp) (pairs_inv hs).2.1 ?_ ?_
      · obtain ⟨x, hx, -⟩ := (near_feas hs).1 hne
        exact ⟨x, hx.1⟩
      · obtain ⟨R, hR⟩ := hbd'
        exact ⟨R, fun x hx j hj => hR x ⟨hx, fun i hi => absurd hi (Nat.not_lt_zero i)⟩ j (by omega)⟩
    obtain ⟨q1, -, -, -, -, hrun, -, hret⟩ := project_run hL (pairs_inv hs) (Poly.hasRows_of_bounded (by norm_num) hbd') (by norm_num) hc ((near_feas hs).1 hne) (Or.inl ⟨rfl, hbd'⟩) rfl Q rand fuel [0, 1]
    obtain ⟨r, hs'⟩ := hret S _ (Prod.ext hS rfl)
    have hG := Projection.method_good hL hQ (dims := [0, 1]) hB (pair_cols (by omega)) hs'
    have := hrun r hs' hG.fn
    rw [show List.range 2 = [0, 1] from rfl, this] at hS
    obtain rfl := Option.some.inj (Except.ok.inj hS)
    exact pent_method (by omega) hB hproj hL hQ hs'
  · refine ((C46_partial L hL Q hQ rand hr 1 2 q hs fuel).1 (by norm_num) hbd hne).2 (Or.inr ⟨hf, fun j => if j = 0 then 0 else -1 / 2, 1e-7, by norm_num,
      fun x hx => ⟨fun _ => 0, ?_⟩⟩)
    rw [hd]
    exact (pentQP_feas _ x).2 ⟨pent_box hx, by norm_num⟩

/-- `u + x ≤ 1`, `u, x ≥ 0`: the feasible parameters are exactly the unit interval -/
example : ∃ q : MpQP, q.Made ∧ q.data.Shape 1 1 ∧ ∀ L, LibSpec L → ∀ Q, QhullSpec Q → ∀ rand, RandSpec rand → ∀ fuel,
    ∃ S, q.get_feasible_set L Q rand fuel = .ok (some S) ∧ ∀ x, S.Mem x ↔ 0 ≤ x 0 ∧ x 0 ≤ 1 := by
  let P : Spec.ParamQP := ⟨⟨1, 1, fun _ _ => 1⟩, ⟨1, 1, fun _ _ => 0⟩, ⟨1, 1, fun _ _ => 0⟩, ⟨1, fun _ => 0⟩, ⟨1, fun _ => 0⟩, 0,
    ⟨3, 1, fun i _ => if i = 0 then 1 else if i = 1 then -1 else 0⟩, ⟨3, 1, fun i _ => if i = 0 then 1 else if i = 1 then 0 else -1⟩,
    ⟨3, fun i => if i = 0 then 1 else 0⟩⟩
  have hP : P.Shape 1 1 := by
    refine ⟨⟨rfl, rfl, fun _ _ _ _ => rfl, ?_⟩, rfl, rfl, rfl, rfl, rfl, rfl, rfl, rfl, rfl, rfl⟩
    rintro x ⟨i, hi, hx⟩
    have : i = 0 := by omega
    subst this
    have := mul_self_pos.2 hx
    simpa [P] using this
  have hf : ∀ u x, P.Feas 1 1 u x ↔ u 0 + x 0 ≤ 1 ∧ 0 ≤ u 0 ∧ 0 ≤ x 0 := by
    intro u x
    constructor
    · intro h
      have h0 := h 0 (by show 0 < 3; norm_num)
      have h1 := h 1 (by show 1 < 3; norm_num)
      have h2 := h 2 (by show 2 < 3; norm_num)
      simp [P, Spec.ParamQP.lhs] at h0 h1 h2
      exact ⟨h0, h1, h2⟩
    · rintro ⟨h0, h1, h2⟩ i hi
      have : i < 3 := hi
      interval_cases i <;> simp [P, Spec.ParamQP.lhs, h0, h1, h2]
  obtain ⟨q, -, hm, hd⟩ := MpQP.init_made hP
  have hs : q.data.Shape 1 1 := by rw [hd]; exact hP
  refine ⟨q, hm, hs, fun L hL Q hQ rand hr fuel => ?_⟩
  have := (C46_partial L hL Q hQ rand hr 1 1 q hs fuel).1 (by norm_num) ⟨1, fun u x h => ?_⟩ ⟨fun _ => 0, fun _ => 0, ?_, by norm_num⟩
  · obtain ⟨h1, h2⟩ := this
    obtain ⟨S, hS⟩ := h2 (Or.inl rfl)
    obtain ⟨-, -, k1, -, k2⟩ := h1 S hS
    refine ⟨S, hS, fun x => ⟨fun hx => ?_, fun ⟨h3, h4⟩ => k2.1 rfl (fun _ => 0) x ?_⟩⟩
    · obtain ⟨u, hu⟩ := k1 x hx
      rw [hd, hf] at hu
      exact ⟨hu.2.2, by linarith⟩
    · rw [hd, hf]
      exact ⟨by linarith, le_rfl, h3⟩
  · rw [hd, hf] at h
    obtain ⟨h0, h1, h2⟩ := h
    refine ⟨fun j hj => ?_, fun j hj => ?_⟩
    all_goals
      obtain rfl : j = 0 := by omega
      rw [abs_le]
      constructor <;> linarith
  · rw [hd, hf]
    norm_num

end Verif.Props
