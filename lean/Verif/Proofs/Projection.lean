import Verif.Proofs.QhullExists
import Verif.Proofs.PolyBounded
import Verif.Proofs.Drake
import Verif.Props.GeomUtils

/- The projection of a bounded polyhedron on its first coordinates: vertices found by linear programs. -/
namespace Verif.Projection
open Finset Geom

/-- `A z ≤ b` -/
def Fs (A : Mat ℝ) (b : Vec ℝ) (z : ℕ → ℝ) : Prop := ∀ i < A.nr, Spec.rowVal A i z ≤ b.e i

/-- the first `n` coordinates of `y` are those of a point of the polyhedron -/
def Pr (n : ℕ) (A : Mat ℝ) (b : Vec ℝ) (y : ℕ → ℝ) : Prop := ∃ z, Fs A b z ∧ ∀ j < n, y j = z j

/-- a bounded polyhedron to be projected on its first `n` coordinates -/
structure Body (n : ℕ) (A : Mat ℝ) (b : Vec ℝ) : Prop where
  pos : 0 < n
  le : n ≤ A.nc
  bn : b.n = A.nr
  ne : ∃ z, Fs A b z
  bd : ∃ R, ∀ z, Fs A b z → ∀ j < A.nc, |z j| ≤ R

/-- a bounded set has an inequality -/
theorem Body.rows {n : ℕ} {A : Mat ℝ} {b : Vec ℝ} (h : Body n A b) : 0 < A.nr := by
  by_contra h0
  obtain ⟨R, hR⟩ := h.bd
  have h1 := hR (fun _ => |R| + 1) (fun i hi => absurd hi (by omega)) 0 (lt_of_lt_of_le h.pos h.le)
  rw [abs_of_pos (by positivity)] at h1
  have := le_abs_self R
  linarith

/-- `a y` -/
def dotp (n : ℕ) (a y : ℕ → ℝ) : ℝ := ∑ j ∈ range n, a j * y j

theorem dotp_congr {n : ℕ} {a a' y y' : ℕ → ℝ} (h1 : ∀ j < n, a j = a' j) (h2 : ∀ j < n, y j = y' j) : dotp n a y = dotp n a' y' :=
  Finset.sum_congr rfl fun j hj => by rw [h1 j (mem_range.1 hj), h2 j (mem_range.1 hj)]

theorem dotp_neg (n : ℕ) (a y : ℕ → ℝ) : dotp n (fun j => -a j) y = -dotp n a y := by
  simp only [dotp, neg_mul, Finset.sum_neg_distrib]

theorem fs_convex {A : Mat ℝ} {b : Vec ℝ} {z z' : ℕ → ℝ} (h : Fs A b z) (h' : Fs A b z') {t : ℝ} (h0 : 0 ≤ t) (h1 : t ≤ 1) :
    Fs A b fun j => (1 - t) * z j + t * z' j := by
  intro i hi
  have e : Spec.rowVal A i (fun j => (1 - t) * z j + t * z' j) = (1 - t) * Spec.rowVal A i z + t * Spec.rowVal A i z' := by
    simp only [Spec.rowVal, Finset.mul_sum, ← Finset.sum_add_distrib]
    exact Finset.sum_congr rfl fun j _ => by ring
  rw [e]
  have := mul_le_mul_of_nonneg_left (h i hi) (sub_nonneg.2 h1)
  have := mul_le_mul_of_nonneg_left (h' i hi) h0
  linarith

theorem fs_comb {A : Mat ℝ} {b : Vec ℝ} {m : ℕ} {w : ℕ → ℝ} {z : ℕ → ℕ → ℝ} (hz : ∀ k < m, Fs A b (z k)) (hw : ∀ k < m, 0 ≤ w k)
    (h1 : ∑ k ∈ range m, w k = 1) : Fs A b fun j => ∑ k ∈ range m, w k * z k j := by
  intro i hi
  have e : Spec.rowVal A i (fun j => ∑ k ∈ range m, w k * z k j) = ∑ k ∈ range m, w k * Spec.rowVal A i (z k) := by
    simp only [Spec.rowVal, Finset.mul_sum]
    rw [Finset.sum_comm]
    exact Finset.sum_congr rfl fun k _ => Finset.sum_congr rfl fun j _ => by ring
  rw [e]
  calc ∑ k ∈ range m, w k * Spec.rowVal A i (z k) ≤ ∑ k ∈ range m, w k * b.e i := Finset.sum_le_sum fun k hk =>
        mul_le_mul_of_nonneg_left (hz k (mem_range.1 hk) i hi) (hw k (mem_range.1 hk))
    _ = b.e i := by rw [← Finset.sum_mul, h1, one_mul]

/-- convex combinations of points of the projection are points of the projection -/
theorem pr_hull {n : ℕ} {A : Mat ℝ} {b : Vec ℝ} {P : Mat ℝ} (hn : P.nc = n) (hP : ∀ k < P.nr, Pr n A b (P.e k)) {x : ℕ → ℝ} (hx : Spec.InHull P x) :
    Pr n A b x := by
  obtain ⟨w, h1, h2, h3⟩ := hx
  have hz : ∀ k, ∃ z : ℕ → ℝ, k < P.nr → Fs A b z ∧ ∀ j < n, P.e k j = z j := fun k => by
    by_cases hk : k < P.nr
    · obtain ⟨z, hz⟩ := hP k hk
      exact ⟨z, fun _ => hz⟩
    · exact ⟨0, fun h => absurd h hk⟩
  choose z hz using hz
  refine ⟨_, fs_comb (z := z) (fun k hk => (hz k hk).1) h1 h2, fun j hj => ?_⟩
  rw [h3 j (hn ▸ hj)]
  exact Finset.sum_congr rfl fun k hk => by rw [(hz k (mem_range.1 hk)).2 j hj]

section lp
variable {L : Lib} (hL : LibSpec L) {n : ℕ} {A : Mat ℝ} {b : Vec ℝ} (hB : Body n A b)
include hL hB

theorem lp_body {f : Vec ℝ} (hf : f.n = A.nc) : ∃ s x, lpDefault L f A b = .ok s ∧ s.argmin = some x ∧ s.min = some (dotp A.nc f.e x.e) ∧
    x.n = A.nc ∧ Fs A b x.e ∧ ∀ z, Fs A b z → dotp A.nc f.e x.e ≤ dotp A.nc f.e z := by
  have hs : Spec.ConstrShape A.nc A b none none := ⟨rfl, hB.bn⟩
  have hfeas : ∀ x : Vec ℝ, Spec.Feasible A b none none x ↔ Fs A b x.e := fun x => ⟨fun h => h.1, fun h => ⟨h, trivial⟩⟩
  have hcost : ∀ x, Spec.lpCost f x = dotp A.nc f.e x.e := fun x => by rw [Spec.lpCost, hf]; rfl
  have hopt : ∃ x, Spec.IsLpOpt f A b none none x := by
    by_contra hno
    rcases no_lpOpt hf hs hno with h | h
    · obtain ⟨z, hz⟩ := hB.ne
      exact h ⟨A.nc, z⟩ ((hfeas _).2 hz)
    · obtain ⟨R, hR⟩ := hB.bd
      obtain ⟨x, h1, h2⟩ := h (-∑ j ∈ range A.nc, |f.e j| * R)
      rw [hfeas] at h1
      rw [hcost] at h2
      have : -∑ j ∈ range A.nc, |f.e j| * R ≤ dotp A.nc f.e x.e := by
        rw [dotp, ← Finset.sum_neg_distrib]
        refine Finset.sum_le_sum fun j hj => ?_
        have := hR x.e h1 j (mem_range.1 hj)
        have h3 : |f.e j * x.e j| ≤ |f.e j| * R := by rw [abs_mul]; exact mul_le_mul_of_nonneg_left this (abs_nonneg _)
        linarith [neg_abs_le (f.e j * x.e j)]
      linarith
  obtain ⟨x, lam, mu, h1, h2, h3, -⟩ := lp_finds hL hf hs (.inl hB.rows) (tol := 1e-7) (by norm_num) hopt
  refine ⟨_, x, h1, rfl, by rw [hcost], h2, (hfeas x).1 h3.1, fun z hz => ?_⟩
  have := h3.2 ⟨A.nc, z⟩ ((hfeas _).2 hz)
  rwa [hcost, hcost] at this

/-- linear programs whose cost involves the first `k` coordinates -/
theorem lp_dir {k : ℕ} (hk : k ≤ A.nc) {f : Vec ℝ} (hf : f.n = A.nc) {a : ℕ → ℝ} (ha : ∀ j < k, f.e j = a j) (h0 : ∀ j < A.nc, k ≤ j → f.e j = 0) :
    ∃ s x, lpDefault L f A b = .ok s ∧ s.argmin = some x ∧ s.min = some (dotp k a x.e) ∧ x.n = A.nc ∧ Fs A b x.e ∧
      ∀ z, Fs A b z → dotp k a x.e ≤ dotp k a z := by
  have hd : ∀ z, dotp A.nc f.e z = dotp k a z := by
    intro z
    obtain ⟨r, hr⟩ := Nat.exists_eq_add_of_le hk
    rw [dotp, hr, Finset.sum_range_add, dotp]
    rw [Finset.sum_eq_zero (s := range r) fun j hj => by rw [h0 (k + j) (by have := mem_range.1 hj; omega) (by omega), zero_mul], add_zero]
    exact Finset.sum_congr rfl fun j hj => by rw [ha j (mem_range.1 hj)]
  obtain ⟨s, x, h1, h2, h3, h4, h5, h6⟩ := lp_body hL hB hf
  rw [hd] at h3
  simp only [hd] at h6
  exact ⟨s, x, h1, h2, h3, h4, h5, h6⟩

omit hL hB in
theorem concat2 (a : Vec ℝ) (m : ℕ) : np.concatenate [a, Vec.zeros m] = .ok (a.append (Vec.zeros m)) := rfl

omit hL hB in
theorem append_zeros_lt (a : Vec ℝ) (m : ℕ) {j : ℕ} (h : j < a.n) : (a.append (Vec.zeros m)).e j = a.e j := Vec.append_e_lt _ _ h

omit hL hB in
theorem append_zeros_ge (a : Vec ℝ) (m : ℕ) {j : ℕ} (h : a.n ≤ j) : (a.append (Vec.zeros m)).e j = 0 := by
  obtain ⟨r, rfl⟩ := Nat.exists_eq_add_of_le h
  rw [Vec.append_e_add]
  rfl

theorem two_vertices : ∃ v1 v2, getTwoVertices L A b n = .ok [v1, v2] ∧ v1.n = n ∧ v2.n = n ∧ Pr n A b v1.e ∧ Pr n A b v2.e ∧
    ∀ z, Fs A b z → v1.e 0 ≤ z 0 ∧ z 0 ≤ v2.e 0 := by
  have hpos := hB.pos
  have hle := hB.le
  have hfn : ((Vec.ones 1 : Vec ℝ).append (Vec.zeros (A.nc - 1))).n = A.nc := by show 1 + (A.nc - 1) = A.nc; omega
  have e1 : ∀ z : ℕ → ℝ, dotp 1 (fun _ => 1) z = z 0 := fun z => by simp [dotp]
  have e2 : ∀ z : ℕ → ℝ, dotp 1 (fun _ => -1) z = -z 0 := fun z => by simp [dotp]
  obtain ⟨s1, x1, a1, a2, -, a3, a4, a5⟩ := lp_dir hL hB (k := 1) (by omega) hfn (a := fun _ => 1) (fun j hj => append_zeros_lt _ _ hj)
    (fun j _ hj => append_zeros_ge _ _ hj)
  obtain ⟨s2, x2, b1, b2, -, b3, b4, b5⟩ := lp_dir hL hB (k := 1) (f := ((Vec.ones 1 : Vec ℝ).append (Vec.zeros (A.nc - 1))).neg) (by omega) hfn
    (a := fun _ => -1) (fun j hj => congrArg Neg.neg (append_zeros_lt _ _ hj)) (fun j _ hj => by
      show -_ = (0 : ℝ)
      rw [append_zeros_ge _ _ hj, neg_zero])
  simp only [e1] at a5
  simp only [e2] at b5
  have hsl : ∀ x : Vec ℝ, (x.slice 0 n).e = x.e := fun x => funext fun j => by show x.e (0 + j) = _; rw [Nat.zero_add]
  refine ⟨x1.slice 0 n, x2.slice 0 n, ?_, ?_, ?_, ⟨x1.e, a4, fun j _ => by rw [hsl]⟩, ⟨x2.e, b4, fun j _ => by rw [hsl]⟩, fun z hz => ?_⟩
  · unfold getTwoVertices
    rw [if_neg (by omega), concat2, Py.ok_bind, a1, Py.ok_bind, b1]
    simp only [argminTo, a2, b2, Py.ok_bind]
    rfl
  · show min n x1.n - 0 = n; omega
  · show min n x2.n - 0 = n; omega
  · rw [hsl, hsl]
    exact ⟨a5 z hz, by linarith [b5 z hz]⟩

end lp

theorem slice0 (x : Vec ℝ) (n : ℕ) : (x.slice 0 n).e = x.e := funext fun j => by show x.e (0 + j) = _; rw [Nat.zero_add]

/-- what is known about the vertices of the simplex in dimension `i - 1` -/
structure Simplex (n : ℕ) (A : Mat ℝ) (b : Vec ℝ) (i : ℕ) (vs : List (Vec ℝ)) : Prop where
  len : vs.length = i
  size : ∀ v ∈ vs, v.n = n
  pr : ∀ v ∈ vs, Pr n A b v.e
  indep : Spec.AffIndep (i - 1) vs
  full : ∀ (a : ℕ → ℝ) (d : ℝ), (∀ v ∈ vs, dotp (i - 1) a v.e = d) → ∀ j < i - 1, a j = 0

/-- the projection contains a box that is at least `1e-7` wide -/
def Wide (n : ℕ) (A : Mat ℝ) (b : Vec ℝ) : Prop :=
  ∃ (x0 : ℕ → ℝ) (ε : ℝ), 1e-7 ≤ 2 * ε ∧ ∀ y : ℕ → ℝ, (∀ j < n, |y j - x0 j| ≤ ε) → Pr n A b y

theorem wide_dir {n i : ℕ} {A : Mat ℝ} {b : Vec ℝ} (hW : Wide n A b) (hi : i ≤ n) {a : ℕ → ℝ} (ha : ∑ j ∈ range i, a j ^ 2 = 1) :
    ∃ z z', Fs A b z ∧ Fs A b z' ∧ dotp i a z + 1e-7 ≤ dotp i a z' := by
  obtain ⟨x0, ε, he, h⟩ := hW
  have hε : 0 ≤ ε := by linarith
  have hs : ∀ s : ℝ, |s| = 1 → ∃ z, Fs A b z ∧ dotp i a z = dotp i a x0 + s * ε * ∑ j ∈ range i, |a j| := by
    intro s hs
    obtain ⟨z, hz, e⟩ := h (fun j => x0 j + s * ε * SignType.sign (a j)) fun j _ => by
      have h1 : |(SignType.sign (a j) : ℝ)| ≤ 1 := by
        rcases lt_trichotomy (a j) 0 with h | h | h
        · rw [sign_neg h]; norm_num
        · rw [h, sign_zero]; norm_num
        · rw [sign_pos h]; norm_num
      rw [add_sub_cancel_left, abs_mul, abs_mul, hs, one_mul, abs_of_nonneg hε]
      nlinarith
    refine ⟨z, hz, ?_⟩
    rw [dotp, dotp, Finset.mul_sum, ← Finset.sum_add_distrib]
    refine Finset.sum_congr rfl fun j hj => ?_
    rw [← e j (lt_of_lt_of_le (mem_range.1 hj) hi)]
    have : a j * (SignType.sign (a j) : ℝ) = |a j| := self_mul_sign _
    linear_combination (s * ε) * this
  have hsum : 1 ≤ ∑ j ∈ range i, |a j| := by
    have h1 : ∀ j ∈ range i, |a j| ≤ 1 := fun j hj => by
      have : a j ^ 2 ≤ 1 := ha ▸ Finset.single_le_sum (f := fun j => a j ^ 2) (fun j _ => sq_nonneg _) hj
      rw [← sq_abs] at this
      nlinarith [abs_nonneg (a j)]
    rw [← ha]
    refine Finset.sum_le_sum fun j hj => ?_
    rw [← sq_abs]
    nlinarith [h1 j hj, abs_nonneg (a j)]
  obtain ⟨z, hz, ez⟩ := hs (-1) (by norm_num)
  obtain ⟨z', hz', ez'⟩ := hs 1 (by norm_num)
  refine ⟨z, z', hz, hz', ?_⟩
  rw [ez, ez']
  nlinarith

theorem affIndep_of_le {k k' : ℕ} (h : k ≤ k') {l : List (Vec ℝ)} (hl : Spec.AffIndep k l) : Spec.AffIndep k' l :=
  fun c h1 h2 => hl c h1 fun j hj => h2 j (by omega)

theorem affIndep_map {k : ℕ} {l : List (Vec ℝ)} (g : Vec ℝ → Vec ℝ) (hg : ∀ v, (g v).e = v.e) (hl : Spec.AffIndep k l) : Spec.AffIndep k (l.map g) := by
  intro c h1 h2
  have hlen : (l.map g).length = l.length := List.length_map _
  have h := hl (fun i => c (Fin.cast hlen.symm i)) (by
    rw [← h1]
    exact Fintype.sum_equiv (finCongr hlen.symm) _ _ fun i => rfl) fun j hj => by
    rw [← h2 j hj]
    refine Fintype.sum_equiv (finCongr hlen.symm) _ _ fun i => ?_
    simp [hg]
  funext i
  exact congrFun h (Fin.cast hlen i)

theorem affIndep_snoc {k : ℕ} {l : List (Vec ℝ)} {v : Vec ℝ} (hl : Spec.AffIndep k l) {a : ℕ → ℝ} {d : ℝ} (ha : ∀ p ∈ l, dotp (k + 1) a p.e = d)
    (hv : dotp (k + 1) a v.e ≠ d) : Spec.AffIndep (k + 1) (l ++ [v]) := by
  intro c h1 h2
  have hlen : (l ++ [v]).length = l.length + 1 := by simp
  set c' : Fin (l.length + 1) → ℝ := fun i => c (Fin.cast hlen.symm i) with hc'
  have hsum : ∀ f : Vec ℝ → ℝ, ∑ k, c k * f ((l ++ [v])[k]) = ∑ k : Fin l.length, c' k.castSucc * f l[k] + c' (Fin.last _) * f v := by
    intro f
    have e1 : ∑ k, c k * f ((l ++ [v])[k]) = ∑ i : Fin (l.length + 1), c' i * f ((l ++ [v])[Fin.cast hlen.symm i]) :=
      (Fintype.sum_equiv (finCongr hlen.symm) _ _ fun i => rfl).symm
    rw [e1, Fin.sum_univ_castSucc]
    congr 1
    · refine Finset.sum_congr rfl fun i _ => ?_
      congr 2
      exact List.getElem_append_left i.2
    · congr 2
      exact List.getElem_concat_length rfl _
  have hs1 := hsum fun _ => 1
  simp only [mul_one, h1] at hs1
  have hs2 : ∀ j < k + 1, ∑ k : Fin l.length, c' k.castSucc * (l[k]).e j + c' (Fin.last _) * v.e j = 0 := fun j hj => by
    rw [← hsum fun p => p.e j]
    exact h2 j hj
  have hd : ∑ k : Fin l.length, c' k.castSucc * d + c' (Fin.last _) * dotp (k + 1) a v.e = 0 := by
    have : ∑ j ∈ range (k + 1), a j * (∑ k : Fin l.length, c' k.castSucc * (l[k]).e j + c' (Fin.last _) * v.e j) = 0 :=
      Finset.sum_eq_zero fun j hj => by rw [hs2 j (mem_range.1 hj), mul_zero]
    rw [← this]
    simp only [mul_add, Finset.sum_add_distrib, Finset.mul_sum]
    congr 1
    · rw [Finset.sum_comm]
      refine Finset.sum_congr rfl fun i _ => ?_
      rw [← ha l[i] (List.getElem_mem _), dotp, Finset.mul_sum]
      exact Finset.sum_congr rfl fun j _ => by ring
    · rw [dotp, Finset.mul_sum]
      exact Finset.sum_congr rfl fun j _ => by ring
  have hlast : c' (Fin.last _) = 0 := by
    rw [← Finset.sum_mul] at hd
    have : c' (Fin.last _) * (dotp (k + 1) a v.e - d) = 0 := by
      have e : ∑ k : Fin l.length, c' k.castSucc = -c' (Fin.last _) := by linarith
      rw [e] at hd
      linarith
    exact (mul_eq_zero.1 this).resolve_right (sub_ne_zero.2 hv)
  have hrest := hl (fun i => c' i.castSucc) (by rw [hlast] at hs1; linarith) fun j hj => by
    have := hs2 j (by omega)
    rw [hlast, zero_mul, add_zero] at this
    exact this
  have hc0 : ∀ i, c' i = 0 := fun i => by
    refine Fin.lastCases hlast (fun i => ?_) i
    exact congrFun hrest i
  funext i
  exact hc0 (Fin.cast hlen i)

end Verif.Projection
