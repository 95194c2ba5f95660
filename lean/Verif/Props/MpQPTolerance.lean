import Verif.Props.MpQPLipschitz
import Verif.Props.MpQPSolution
import Verif.Props.MpQPLoop
import Verif.Proofs.MpQPRegion
import Verif.Proofs.PolyEmpty
import Mathlib.Data.Fintype.List

/- The answer of a critical region that contains the parameter only within a tolerance (C155). -/
namespace Verif.Props
open Finset Verif.MpQP

variable {nu nx : ℕ}

/-- the point at distance at most a multiple of the violation that satisfies a system of inequalities that can be satisfied -/
theorem hoffman (n m : ℕ) (A : ℕ → ℕ → ℝ) (b : ℕ → ℝ) (hne : ∃ x : ℕ → ℝ, ∀ i < m, ∑ j ∈ range n, A i j * x j ≤ b i) :
    ∃ H, 0 ≤ H ∧ ∀ (x : ℕ → ℝ) (e : ℝ), 0 ≤ e → (∀ i < m, ∑ j ∈ range n, A i j * x j ≤ b i + e) →
      ∃ y : ℕ → ℝ, (∀ i < m, ∑ j ∈ range n, A i j * y j ≤ b i) ∧ ∀ j < n, |x j - y j| ≤ H * e := by
  set P : Spec.ParamQP := ⟨Mat.eye n, Mat.zeros n (n + 1), Mat.zeros (n + 1) (n + 1), Vec.zeros n, Vec.zeros (n + 1), 0, ⟨m, n, A⟩,
    ⟨m, n + 1, fun i k => if k < n then A i k else -1⟩, ⟨m, b⟩⟩ with hP
  have hs : P.Shape n (n + 1) := ⟨symPosDef_eye n, rfl, rfl, rfl, rfl, rfl, rfl, rfl, rfl, rfl, rfl⟩
  obtain ⟨K, hK, hlip⟩ := optimizer_lipschitz hs
  have hlhs : ∀ (i : ℕ) (z x : ℕ → ℝ) (e : ℝ), P.lhs n (n + 1) i z (fun k => if k < n then x k else e) = ∑ j ∈ range n, A i j * (x j + z j) - e := by
    intro i z x e
    unfold Spec.ParamQP.lhs
    have e1 : ∑ j ∈ range (n + 1), P.Ax.e i j * (if j < n then x j else e) = ∑ j ∈ range n, A i j * x j - e := by
      rw [Finset.sum_range_succ]
      have : ∑ j ∈ range n, P.Ax.e i j * (if j < n then x j else e) = ∑ j ∈ range n, A i j * x j :=
        Finset.sum_congr rfl fun j hj => by simp [hP, mem_range.1 hj]
      rw [this]
      simp [hP]
      ring
    rw [e1]
    simp only [mul_add, Finset.sum_add_distrib]
    show ∑ j ∈ range n, A i j * z j + _ = _
    ring
  refine ⟨K, hK, fun x e he hx => ?_⟩
  have h0 : P.Opt n (n + 1) (fun _ => 0) (fun k => if k < n then x k else e) := by
    refine (opt_of_kkt hs (p := fun _ => 0) ⟨fun i hi => ?_, fun j _ => ?_, fun _ _ => le_rfl, fun _ _ => by simp⟩).1
    · rw [hlhs]
      simpa using hx i hi
    · simp [Spec.ParamQP.lagrangian, hP, Mat.zeros, Vec.zeros]
  obtain ⟨x0, hx0⟩ := hne
  obtain ⟨z, hz⟩ := opt_exists hs (x := fun k => if k < n then x k else 0) ⟨fun j => x0 j - x j, fun i hi => by
    rw [hlhs]
    simpa using hx0 i hi⟩
  refine ⟨fun j => x j + z j, fun i hi => ?_, fun j hj => ?_⟩
  · have := hz.1 i hi
    rw [hlhs] at this
    simpa using this
  · have := hlip _ _ _ _ h0 hz j hj
    have e1 : ∑ l ∈ range (n + 1), |(if l < n then x l else e) - (if l < n then x l else 0)| = e := by
      rw [Finset.sum_range_succ, Finset.sum_eq_zero fun l hl => by simp [mem_range.1 hl]]
      simp [abs_of_nonneg he]
    rw [e1] at this
    have e2 : x j - (x j + z j) = 0 - z j := by ring
    rw [e2]
    exact this

/-- the parameters, a linear term of the cost and the slacks in one vector -/
def slackJoin (nu nx : ℕ) (x d s : ℕ → ℝ) (k : ℕ) : ℝ := if k < nx then x k else if k < nx + nu then d (k - nx) else s (k - (nx + nu))

theorem sum_slackSum (m : ℕ) (f : ℕ → ℝ) (F : ℕ → ℝ → ℝ) (x d s : ℕ → ℝ) (hF : ∀ k, f k = F k (slackJoin nu nx x d s k)) :
    ∑ k ∈ range (nx + nu + m), f k = ∑ k ∈ range nx, F k (x k) + ∑ k ∈ range nu, F (nx + k) (d k) + ∑ k ∈ range m, F (nx + nu + k) (s k) := by
  rw [Finset.sum_range_add, Finset.sum_range_add]
  congr 1
  · congr 1
    · exact Finset.sum_congr rfl fun k hk => by rw [hF, slackJoin, if_pos (mem_range.1 hk)]
    · refine Finset.sum_congr rfl fun k hk => ?_
      have := mem_range.1 hk
      rw [hF, slackJoin, if_neg (by omega), if_pos (by omega), Nat.add_sub_cancel_left]
  · refine Finset.sum_congr rfl fun k hk => ?_
    rw [hF, slackJoin, if_neg (by omega), if_neg (by omega), Nat.add_sub_cancel_left]

/-- the program with a linear term of the cost and slacks as further parameters -/
noncomputable def slackQP (nu nx : ℕ) (P : Spec.ParamQP) : Spec.ParamQP where
  Huu := P.Huu
  Hux := ⟨nu, nx + nu + P.Au.nr, fun j k => if k < nx then P.Hux.e j k else if k = nx + j then 1 else 0⟩
  Hxx := Mat.zeros (nx + nu + P.Au.nr) (nx + nu + P.Au.nr)
  fu := P.fu
  fx := Vec.zeros (nx + nu + P.Au.nr)
  g := 0
  Au := P.Au
  Ax := ⟨P.Au.nr, nx + nu + P.Au.nr, fun i k => if k < nx then P.Ax.e i k else if k = nx + nu + i then -1 else 0⟩
  b := P.b

theorem slackQP_shape {P : Spec.ParamQP} (hs : P.Shape nu nx) : (slackQP nu nx P).Shape nu (nx + nu + P.Au.nr) :=
  ⟨hs.Huu, rfl, rfl, rfl, rfl, hs.fu, rfl, hs.Au, rfl, rfl, hs.b⟩

theorem slackQP_lhs (P : Spec.ParamQP) (u x d s : ℕ → ℝ) {i : ℕ} (hi : i < P.Au.nr) :
    (slackQP nu nx P).lhs nu (nx + nu + P.Au.nr) i u (slackJoin nu nx x d s) = P.lhs nu nx i u x - s i := by
  unfold Spec.ParamQP.lhs
  rw [sum_slackSum P.Au.nr _ (fun k t => (slackQP nu nx P).Ax.e i k * t) x d s fun k => rfl]
  have e1 : ∑ k ∈ range nx, (slackQP nu nx P).Ax.e i k * x k = ∑ k ∈ range nx, P.Ax.e i k * x k :=
    Finset.sum_congr rfl fun k hk => by simp [slackQP, mem_range.1 hk]
  have e2 : ∑ k ∈ range nu, (slackQP nu nx P).Ax.e i (nx + k) * d k = 0 :=
    Finset.sum_eq_zero fun k hk => by
      have := mem_range.1 hk
      simp only [slackQP]
      rw [if_neg (by omega), if_neg (by omega), zero_mul]
  have e3 : ∑ k ∈ range P.Au.nr, (slackQP nu nx P).Ax.e i (nx + nu + k) * s k = - s i := by
    rw [Finset.sum_eq_single i]
    · simp only [slackQP]
      rw [if_neg (by omega), if_pos trivial, neg_one_mul]
    · intro k _ hk
      simp only [slackQP]
      rw [if_neg (by omega), if_neg (by omega), zero_mul]
    · intro h
      exact absurd (mem_range.2 hi) h
  rw [e1, e2, e3]
  show ∑ j ∈ range nu, P.Au.e i j * u j + _ = _
  ring

theorem slackQP_lagrangian (P : Spec.ParamQP) (u x d s p : ℕ → ℝ) {j : ℕ} (hj : j < nu) :
    (slackQP nu nx P).lagrangian nu (nx + nu + P.Au.nr) u (slackJoin nu nx x d s) p j = P.lagrangian nu nx u x p j + d j := by
  unfold Spec.ParamQP.lagrangian
  rw [sum_slackSum P.Au.nr _ (fun k t => (slackQP nu nx P).Hux.e j k * t) x d s fun k => rfl]
  have e1 : ∑ k ∈ range nx, (slackQP nu nx P).Hux.e j k * x k = ∑ k ∈ range nx, P.Hux.e j k * x k :=
    Finset.sum_congr rfl fun k hk => by simp [slackQP, mem_range.1 hk]
  have e2 : ∑ k ∈ range P.Au.nr, (slackQP nu nx P).Hux.e j (nx + nu + k) * s k = 0 :=
    Finset.sum_eq_zero fun k hk => by
      simp only [slackQP]
      rw [if_neg (by omega), if_neg (by omega), zero_mul]
  have e3 : ∑ k ∈ range nu, (slackQP nu nx P).Hux.e j (nx + k) * d k = d j := by
    rw [Finset.sum_eq_single j]
    · simp only [slackQP]
      rw [if_neg (by omega), if_pos trivial, one_mul]
    · intro k _ hk
      simp only [slackQP]
      rw [if_neg (by omega), if_neg (by omega), zero_mul]
    · intro h
      exact absurd (mem_range.2 hj) h
  rw [e1, e2, e3]
  show ∑ k ∈ range nu, P.Huu.e j k * u k + _ + P.fu.e j + ∑ i ∈ range P.Au.nr, p i * P.Au.e i j = _
  ring

/-- the affine function of an active set, at a parameter where its conditions hold up to `e`, is close to the optimizer -/
theorem near_region {q : MpQP} (hm : q.Made) (hs : q.data.Shape nu nx) : ∃ K, 0 ≤ K ∧ ∀ (a : List ℕ) (x : ℕ → ℝ) (e : ℝ),
    (∀ i ∈ a, i < q.Au.nr) → q.data.Licq nu a → 0 ≤ e → (∀ i ∈ a, -e ≤ q.fp' a nx x i) →
    (∀ i < q.Au.nr, i ∉ a → q.data.lhs nu nx i (q.fu' a nx x) x ≤ q.b.e i + e) →
    ∀ y v : ℕ → ℝ, q.data.Opt nu nx v y → ∀ j < nu, |q.fu' a nx x j - v j| ≤ K * (∑ l ∈ range nx, |x l - y l| + e) := by
  classical
  obtain ⟨K, hK, hlip⟩ := optimizer_lipschitz (slackQP_shape hs)
  set B := ∑ j ∈ range nu, ∑ i ∈ range q.Au.nr, |q.Au.e i j| with hB
  have hB0 : 0 ≤ B := Finset.sum_nonneg fun j _ => Finset.sum_nonneg fun i _ => abs_nonneg _
  refine ⟨K * (1 + B + q.Au.nr), by positivity, fun a x e ha hl he hp hc y v hv j hj => ?_⟩
  obtain ⟨k1, k2, -⟩ := fCr_kkt hm hs ha hl x
  set u := q.fu' a nx x with hu
  set p := q.fp' a nx x with hpd
  set d : ℕ → ℝ := fun j => ∑ i ∈ range q.Au.nr, (p i - max (p i) 0) * q.Au.e i j with hd
  set s : ℕ → ℝ := fun i => if i ∈ a then 0 else e with hsd
  have hpe : ∀ i, |p i - max (p i) 0| ≤ e := by
    intro i
    by_cases hi : i ∈ a
    · have := hp i hi
      rcases le_total (p i) 0 with h | h
      · rw [max_eq_right h, sub_zero, abs_of_nonpos h]; linarith
      · rw [max_eq_left h, sub_self, abs_zero]; exact he
    · have : p i = 0 := fp'_off q nx x hi
      rw [this]
      simpa using he
  have h1 : (slackQP nu nx q.data).Opt nu (nx + nu + q.Au.nr) u (slackJoin nu nx x d s) := by
    refine (opt_of_kkt (slackQP_shape hs) (p := fun i => max (p i) 0) ⟨fun i hi => ?_, fun j hj => ?_, fun _ _ => le_max_right _ _, fun i hi => ?_⟩).1
    · rw [slackQP_lhs q.data _ _ _ _ hi]
      show _ ≤ q.b.e i
      by_cases hia : i ∈ a
      · simp only [hsd, if_pos hia, sub_zero]
        exact (k2 i hia).le
      · simp only [hsd, if_neg hia]
        have := hc i hi hia
        linarith
    · rw [slackQP_lagrangian _ _ _ _ _ _ hj]
      have := k1 j hj
      have e1 : q.data.lagrangian nu nx u x p j = q.data.lagrangian nu nx u x (fun i => max (p i) 0) j + d j := by
        unfold Spec.ParamQP.lagrangian
        have : ∑ i ∈ range q.data.Au.nr, p i * q.data.Au.e i j = ∑ i ∈ range q.data.Au.nr, max (p i) 0 * q.data.Au.e i j + d j := by
          rw [hd]
          show _ = _ + ∑ i ∈ range q.data.Au.nr, (p i - max (p i) 0) * q.data.Au.e i j
          rw [← Finset.sum_add_distrib]
          exact Finset.sum_congr rfl fun i _ => by ring
        rw [this]
        ring
      rw [← e1]
      exact this
    · rw [slackQP_lhs q.data _ _ _ _ hi]
      by_cases hia : i ∈ a
      · simp only [hsd, if_pos hia, sub_zero]
        have : (slackQP nu nx q.data).b.e i - q.data.lhs nu nx i u x = 0 := sub_eq_zero.2 (k2 i hia).symm
        rw [this, mul_zero]
      · have : p i = 0 := fp'_off q nx x hia
        simp [this]
  have h2 : (slackQP nu nx q.data).Opt nu (nx + nu + q.Au.nr) v (slackJoin nu nx y (fun _ => 0) fun _ => 0) := by
    obtain ⟨r, hr⟩ := kkt_of_opt hs hv
    refine (opt_of_kkt (slackQP_shape hs) (p := r) ⟨fun i hi => ?_, fun j hj => ?_, hr.nonneg, fun i hi => ?_⟩).1
    · rw [slackQP_lhs q.data _ _ _ _ hi, sub_zero]
      exact hr.feas i hi
    · rw [slackQP_lagrangian _ _ _ _ _ _ hj, add_zero]
      exact hr.stat j hj
    · rw [slackQP_lhs q.data _ _ _ _ hi, sub_zero]
      exact hr.compl i hi
  have h3 := hlip _ _ _ _ h1 h2 j hj
  have e1 : ∑ k ∈ range (nx + nu + q.data.Au.nr), |slackJoin nu nx x d s k - slackJoin nu nx y (fun _ => 0) (fun _ => 0) k|
      = ∑ l ∈ range nx, |x l - y l| + ∑ j ∈ range nu, |d j| + ∑ i ∈ range q.Au.nr, |s i| := by
    have := sum_slackSum (nu := nu) (nx := nx) q.Au.nr (fun k => |slackJoin nu nx x d s k - slackJoin nu nx y (fun _ => 0) (fun _ => 0) k|) (fun _ t => t)
      (fun l => |x l - y l|) (fun l => |d l|) (fun l => |s l|) (by
        intro k
        unfold slackJoin
        split
        · rfl
        · split
          · rw [sub_zero]
          · rw [sub_zero])
    exact this
  rw [e1] at h3
  have h4 : ∑ j ∈ range nu, |d j| ≤ B * e := by
    rw [hB, Finset.sum_mul]
    refine Finset.sum_le_sum fun j _ => ?_
    rw [hd, Finset.sum_mul]
    refine (Finset.abs_sum_le_sum_abs _ _).trans (Finset.sum_le_sum fun i _ => ?_)
    rw [abs_mul, mul_comm]
    exact mul_le_mul_of_nonneg_left (hpe i) (abs_nonneg _)
  have h5 : ∑ i ∈ range q.Au.nr, |s i| ≤ q.Au.nr * e := by
    have : ∀ i ∈ range q.Au.nr, |s i| ≤ e := by
      intro i _
      simp only [hsd]
      split
      · simpa using he
      · exact (abs_of_nonneg he).le
    have := Finset.sum_le_sum this
    rwa [Finset.sum_const, card_range, nsmul_eq_mul] at this
  have h6 : 0 ≤ ∑ l ∈ range nx, |x l - y l| := Finset.sum_nonneg fun _ _ => abs_nonneg _
  refine h3.trans ?_
  rw [mul_assoc]
  refine mul_le_mul_of_nonneg_left ?_ hK
  have h7 : 0 ≤ (B + q.Au.nr) * ∑ l ∈ range nx, |x l - y l| := by positivity
  nlinarith

/-- the norms of the rows of the regions are bounded -/
theorem region_rows (q : MpQP) : ∃ ρ, 1 ≤ ρ ∧ ∀ a : List ℕ, a.Nodup → (∀ i ∈ a, i < q.Au.nr) → ∀ k < (q.fAcr a).nr, vnorm ((q.fAcr a).row k) ≤ ρ := by
  classical
  have hn : ∀ v : Vec ℝ, 0 ≤ vnorm v := fun v => Real.sqrt_nonneg _
  set f : List ℕ → ℝ := fun a => ∑ k ∈ range (q.fAcr a).nr, vnorm ((q.fAcr a).row k) with hf
  have hf0 : ∀ a, 0 ≤ f a := fun a => Finset.sum_nonneg fun k _ => hn _
  refine ⟨1 + ∑ l : {l : List (Fin q.Au.nr) // l.Nodup}, f (l.1.map Fin.val), by
    have := Finset.sum_nonneg fun (l : {l : List (Fin q.Au.nr) // l.Nodup}) (_ : l ∈ Finset.univ) => hf0 (l.1.map Fin.val)
    linarith, fun a ha hlt k hk => ?_⟩
  have e : (a.pmap Fin.mk hlt).map Fin.val = a := by
    rw [List.map_pmap]
    exact List.pmap_eq_self.2 fun _ _ => rfl
  have hnd : (a.pmap Fin.mk hlt).Nodup := by
    have : ((a.pmap Fin.mk hlt).map Fin.val).Nodup := by rw [e]; exact ha
    exact this.of_map _
  have h1 := Finset.single_le_sum (f := fun l : {l : List (Fin q.Au.nr) // l.Nodup} => f (l.1.map Fin.val)) (fun l _ => hf0 _)
    (Finset.mem_univ ⟨a.pmap Fin.mk hlt, hnd⟩)
  simp only [e] at h1
  have h2 := Finset.single_le_sum (f := fun k => vnorm ((q.fAcr a).row k)) (fun k _ => hn _) (mem_range.2 hk)
  have h3 : f a = ∑ k ∈ range (q.fAcr a).nr, vnorm ((q.fAcr a).row k) := rfl
  linarith

/-- a row that holds up to `tol` after the normalization holds up to a multiple before -/
theorem row_tol {p : Poly} {n : ℕ} {i : ℕ} (hi : i < p.A.nr) {x : ℕ → ℝ} {tol ρ : ℝ} (ht : 0 ≤ tol) (hρ : 1 ≤ ρ) (hv : vnorm (p.A.row i) ≤ ρ)
    (h : ∑ j ∈ range n, p.normalize.A.e i j * x j - p.normalize.b.e i ≤ tol) : ∑ j ∈ range n, p.A.e i j * x j - p.b.e i ≤ ρ * tol := by
  obtain ⟨h1, h2⟩ := normalize_row hi
  simp only [h1, h2] at h
  by_cases hg : vnorm (p.A.row i) > 1e-7
  · simp only [if_pos hg] at h
    have hr0 : 0 < vnorm (p.A.row i) := lt_trans (by norm_num) hg
    have e : ∑ j ∈ range n, p.A.e i j / vnorm (p.A.row i) * x j - p.b.e i / vnorm (p.A.row i)
        = (∑ j ∈ range n, p.A.e i j * x j - p.b.e i) / vnorm (p.A.row i) := by
      rw [sub_div, Finset.sum_div]
      congr 1
      exact Finset.sum_congr rfl fun j _ => by ring
    rw [e, div_le_iff₀ hr0] at h
    have := mul_le_mul_of_nonneg_left hv ht
    linarith
  · simp only [if_neg hg] at h
    nlinarith

/-- what it means for a region to contain a parameter up to `tol` -/
theorem region_tol {q : MpQP} (hm : q.Made) (hs : q.data.Shape nu nx) (hpos : 0 < q.Au.nr) : ∃ ρ, 1 ≤ ρ ∧ ∀ a : List ℕ, (∀ i ∈ a, i < q.Au.nr) →
    q.data.Licq nu a → ∀ (x : Vec ℝ) (tol : ℝ), x.n = nx → 0 ≤ tol → (q.fCr a).polyhedron.contains x tol = .ok true →
      (∀ i ∈ a, -(ρ * tol) ≤ q.fp' a nx x.e i) ∧ ∀ i < q.Au.nr, i ∉ a → q.data.lhs nu nx i (q.fu' a nx x.e) x.e ≤ q.b.e i + ρ * tol := by
  obtain ⟨ρ, hρ, hrow⟩ := region_rows q
  refine ⟨ρ, hρ, fun a ha hl x tol hx ht hc => ?_⟩
  have hI := fCr_inv (a := a) hs
  have hnr : (q.fCr a).polyhedron.A.nr = a.length + (q.inactive a).length :=
    (Props.C07 nx _ (fPoly_inv (a := a) hs) 1e-7 (by norm_num)).2.1
  have hA : 0 < (q.fCr a).polyhedron.A.nr := by
    rw [hnr]
    by_cases h0 : a = []
    · subst h0
      have : q.inactive [] = List.range q.Ax.nr := by simp [inactive]
      rw [this]
      have : q.Ax.nr = q.Au.nr := hs.rows
      simp [this, hpos]
    · have := List.length_pos_of_ne_nil h0
      omega
  obtain ⟨r, h1, h2⟩ := contains_iff hI hA x hx tol
  rw [hc] at h1
  cases h1
  have h3 := (h2.1 rfl).1
  have hr : q.Ax.nr = q.Au.nr := hs.rows
  have key : ∀ k < a.length + (q.inactive a).length, ∑ j ∈ range nx, (q.fAcr a).e k j * x.e j - (q.fBcr a).e k ≤ ρ * tol := fun k hk =>
    row_tol (p := q.fPoly a) hk ht hρ (hrow a (licq_nodup hl) ha k hk) (h3 k (hnr.symm ▸ hk))
  refine ⟨fun i hi => ?_, fun i hi hia => ?_⟩
  · obtain ⟨k, hk, rfl⟩ := List.getElem_of_mem hi
    have e1 := fAcr_mul hs hl x.e hk
    have e2 := key k (by omega)
    rw [List.getD_eq_getElem _ _ hk] at e1
    linarith
  · obtain ⟨k, hk, rfl⟩ := exists_inactive (q := q) (hr ▸ hi) hia
    have e1 := fAcr_con (a := a) hm hs x.e k
    have e2 := key (a.length + k) (by omega)
    linarith

/-- C155: let the program be feasible at some parameter.  Then there is `κ`, which depends on the program only, such that for each critical region that contains `x` within the
tolerance `tol` (the code tests with `1e-7`): `u(x)` is defined, it is within `κ tol` of the optimizer at a parameter within `κ tol` of `x` where the program is feasible, and if the
program is feasible at a parameter `y` then `u(x)` is within `κ (|x - y| + tol)` of the optimizer there; thus within `κ tol` of the optimizer at `x`, if there is one. -/
theorem C155 (nu nx : ℕ) (q : MpQP) (hm : q.Made) (hs : q.data.Shape nu nx) (hpos : 0 < q.Au.nr) (hne : ∃ u x, q.data.Feas nu nx u x) :
    ∃ κ, 0 ≤ κ ∧ ∀ (a : List ℕ) (cr : CritReg), q.explicit_solve_given_active_set a = .ok (some cr) → ∀ (x : Vec ℝ) (tol : ℝ), x.n = nx → 0 ≤ tol →
      cr.polyhedron.contains x tol = .ok true → ∃ u, cr.u x = .ok u ∧ u.n = nu ∧
        (∃ y v : ℕ → ℝ, q.data.Opt nu nx v y ∧ (∀ i < nx, |x.e i - y i| ≤ κ * tol) ∧ ∀ j < nu, |u.e j - v j| ≤ κ * tol) ∧
        ∀ y v : ℕ → ℝ, q.data.Opt nu nx v y → ∀ j < nu, |u.e j - v j| ≤ κ * (∑ l ∈ range nx, |x.e l - y l| + tol) := by
  obtain ⟨K, hK, hnear⟩ := near_region hm hs
  obtain ⟨ρ, hρ, htol⟩ := region_tol hm hs hpos
  have hjoin : ∀ (i : ℕ) (u x : ℕ → ℝ), ∑ j ∈ range (nu + nx), (if j < nu then q.Au.e i j else q.Ax.e i (j - nu)) * (if j < nu then u j else x (j - nu))
      = q.data.lhs nu nx i u x := by
    intro i u x
    rw [Finset.sum_range_add]
    unfold Spec.ParamQP.lhs
    congr 1
    · exact Finset.sum_congr rfl fun j hj => by rw [if_pos (mem_range.1 hj), if_pos (mem_range.1 hj)]; rfl
    · refine Finset.sum_congr rfl fun j _ => ?_
      rw [if_neg (by omega), if_neg (by omega), Nat.add_sub_cancel_left]
      rfl
  obtain ⟨H, hH, hhoff⟩ := hoffman (nu + nx) q.Au.nr (fun i j => if j < nu then q.Au.e i j else q.Ax.e i (j - nu)) q.b.e (by
    obtain ⟨u, x, h⟩ := hne
    exact ⟨fun j => if j < nu then u j else x (j - nu), fun i hi => by rw [hjoin]; exact h i hi⟩)
  have hHρ : 0 ≤ H * ρ := by positivity
  have hKρ : 0 ≤ K * ρ := by positivity
  refine ⟨H * ρ + K * ρ * (1 + nx * (H * ρ)), by positivity, fun a cr hrun x tol hx ht hc => ?_⟩
  obtain ⟨ha, hl, rfl⟩ := explicit_cases hm hs hrun
  obtain ⟨h1, h2⟩ := htol a ha hl x tol hx ht hc
  obtain ⟨u, hu, hun, hue⟩ := fCr_u (a := a) hm hs hx
  have hρt : 0 ≤ ρ * tol := by positivity
  have hbase : ∀ y v : ℕ → ℝ, q.data.Opt nu nx v y → ∀ j < nu, |u.e j - v j| ≤ K * ρ * (∑ l ∈ range nx, |x.e l - y l| + tol) := by
    intro y v hv j hj
    have h3 := hnear a x.e (ρ * tol) ha hl hρt h1 h2 y v hv j hj
    rw [hue]
    have h4 : 0 ≤ ∑ l ∈ range nx, |x.e l - y l| := Finset.sum_nonneg fun _ _ => abs_nonneg _
    refine h3.trans ?_
    rw [mul_assoc]
    refine mul_le_mul_of_nonneg_left ?_ hK
    nlinarith
  refine ⟨u, hu, hun, ?_, fun y v hv j hj => (hbase y v hv j hj).trans ?_⟩
  · obtain ⟨z, hz1, hz2⟩ := hhoff (fun j => if j < nu then q.fu' a nx x.e j else x.e (j - nu)) (ρ * tol) hρt (by
      intro i hi
      rw [hjoin]
      by_cases hia : i ∈ a
      · rw [(fCr_kkt hm hs ha hl x.e).2.1 i hia]
        linarith
      · exact h2 i hi hia)
    set y : ℕ → ℝ := fun l => z (nu + l) with hy
    have hfe : q.data.Feas nu nx z y := by
      intro i hi
      rw [← hjoin]
      have e : ∀ j, (if j < nu then z j else y (j - nu)) = z j := by
        intro j
        split
        · rfl
        · rw [hy]
          show z (nu + (j - nu)) = z j
          rw [Nat.add_sub_cancel' (by omega)]
      simp only [e]
      exact hz1 i hi
    obtain ⟨v, hv⟩ := opt_exists hs ⟨z, hfe⟩
    have hxy : ∀ l < nx, |x.e l - y l| ≤ H * ρ * tol := by
      intro l hl
      have := hz2 (nu + l) (by omega)
      rw [if_neg (by omega), Nat.add_sub_cancel_left] at this
      rw [mul_assoc]
      exact this
    refine ⟨y, v, hv, fun l hl => (hxy l hl).trans ?_, fun j hj => (hbase y v hv j hj).trans ?_⟩
    · refine mul_le_mul_of_nonneg_right ?_ ht
      have : 0 ≤ K * ρ * (1 + nx * (H * ρ)) := by positivity
      linarith
    · have h5 : ∑ l ∈ range nx, |x.e l - y l| ≤ nx * (H * ρ * tol) := by
        have := Finset.sum_le_sum fun l hl => hxy l (mem_range.1 hl)
        rwa [Finset.sum_const, card_range, nsmul_eq_mul] at this
      have h6 := mul_le_mul_of_nonneg_left h5 hKρ
      have h7 : 0 ≤ H * ρ * tol := by positivity
      have e : (H * ρ + K * ρ * (1 + nx * (H * ρ))) * tol = H * ρ * tol + K * ρ * tol + K * ρ * (nx * (H * ρ * tol)) := by ring
      rw [e]
      linarith
  · refine mul_le_mul_of_nonneg_right ?_ (add_nonneg (Finset.sum_nonneg fun _ _ => abs_nonneg _) ht)
    have : 0 ≤ K * ρ * (nx * (H * ρ)) := by positivity
    linarith

/-- the hypotheses are met by a region of the program `min 50 (u - x)^2` subject to `u ≤ 0` that contains `5e-8` only within the tolerance -/
example : ∃ (q : MpQP) (cr : CritReg), q.Made ∧ q.data.Shape 1 1 ∧ 0 < q.Au.nr ∧ (∃ u x, q.data.Feas 1 1 u x) ∧
    q.explicit_solve_given_active_set [] = .ok (some cr) ∧ cr.polyhedron.contains ⟨1, fun _ => 5e-8⟩ 1e-7 = .ok true ∧
    ¬ cr.polyhedron.Mem fun _ => 5e-8 := by
  obtain ⟨q, hm, hd, hs, hA, hrun⟩ := clip_made
  have hclip : IsClip q.data := hd ▸ clip_is
  refine ⟨q, _, hm, hs, by omega, ⟨_, _, (clip_opt hclip (x := 0) le_rfl).1.1⟩, hrun _ (Or.inl rfl), (clip_near hm hclip).1, fun h => ?_⟩
  have h1 := ((fCr_mem hm hs (hclip.licq _ (Or.inl rfl)) _).1 h).2 0 (by omega) (by simp)
  rw [hclip.lhs, (clip_kkt (Or.inl rfl) 5e-8 (u := 5e-8) (p := 0) (by ring) (by simp) (by simp) hm hclip).1, show q.b.e 0 = 0 from hclip.b] at h1
  norm_num at h1

end Verif.Props
