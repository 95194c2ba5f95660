import Verif.Proofs.ProjectionLoop
import Verif.Spec.Corners

/- The result of the convex hull method. -/
namespace Verif.Projection
open Finset Geom

/-- what is known of a result, for the polyhedron with reordered columns -/
structure Good (n : ℕ) (A : Mat ℝ) (b : Vec ℝ) (r : Projected) : Prop where
  bb : r.b = b
  nc : r.E.nc = n
  fn : r.f.n = r.E.nr
  unit : ∀ i < r.E.nr, ∑ j ∈ range n, r.E.e i j ^ 2 = 1
  sound : ∀ y, Fs r.E r.f y → Pr n A b y
  bound : ∀ D, (∀ y y', Pr n A b y → Pr n A b y' → ∀ j < n, |y j - y' j| ≤ D) → ∀ y, Pr n A b y → ∀ i < r.E.nr,
    Spec.rowVal r.E i y ≤ r.f.e i + 1e-7 + n * (1e-8 + 1e-5) * D
  exact1 : n = 1 → ∀ y, Pr n A b y → Fs r.E r.f y
  verts : ∀ v ∈ r.vertices, v.n = n ∧ Pr n A b v.e
  corners : Spec.Corners n (Fs r.E r.f) r.vertices
  thick : 2 ≤ n → Spec.Thick n (Fs r.E r.f)

/-- a vertex of the convex hull of points is one of the points -/
theorem vertex_of_hull {n : ℕ} {P : Mat ℝ} (hn : P.nc = n) {S : (ℕ → ℝ) → Prop} (hS : ∀ y, S y ↔ Spec.InHull P y) {x : ℕ → ℝ}
    (hx : Spec.IsVertex n S x) : ∃ k < P.nr, ∀ j < n, x j = P.e k j := by
  subst hn
  obtain ⟨w, w1, w2, w3⟩ := (hS x).1 hx.1
  obtain ⟨k, hk, hpos⟩ : ∃ k < P.nr, 0 < w k := by
    by_contra hno
    push Not at hno
    have : ∑ k ∈ range P.nr, w k ≤ 0 := Finset.sum_nonpos fun k hk => hno k (mem_range.1 hk)
    linarith
  have hle : w k ≤ 1 := w2 ▸ Finset.single_le_sum (f := w) (fun i hi => w1 i (mem_range.1 hi)) (mem_range.2 hk)
  have hone : ∀ f : ℕ → ℝ, ∑ i ∈ range P.nr, (if i = k then f i else 0) = f k := fun f => by
    rw [Finset.sum_ite_eq' (range P.nr) k f, if_pos (mem_range.2 hk)]
  have key := hx.2 (fun j => w k * (P.e k j - x j)) ((hS _).2 ⟨fun i => (1 - w k) * w i + if i = k then w k else 0, fun i hi => ?_, ?_, fun j hj => ?_⟩)
    ((hS _).2 ⟨fun i => (1 + w k) * w i - if i = k then w k else 0, fun i hi => ?_, ?_, fun j hj => ?_⟩)
  · refine ⟨k, hk, fun j hj => ?_⟩
    have := (mul_eq_zero.1 (key j hj)).resolve_left hpos.ne'
    linarith
  · refine add_nonneg (mul_nonneg (by linarith) (w1 i hi)) ?_
    split_ifs <;> linarith
  · rw [Finset.sum_add_distrib, ← Finset.mul_sum, w2, hone fun _ => w k]
    ring
  · simp only [add_mul, ite_mul, zero_mul, Finset.sum_add_distrib, mul_assoc, ← Finset.mul_sum]
    rw [hone fun i => w k * P.e i j, ← w3 j hj]
    ring
  · have := w1 i hi
    show 0 ≤ (1 + w k) * w i - if i = k then w k else 0
    split_ifs with h
    · subst h; nlinarith
    · rw [sub_zero]; exact mul_nonneg (by linarith) this
  · rw [Finset.sum_sub_distrib, ← Finset.mul_sum, w2, hone fun _ => w k]
    ring
  · simp only [sub_mul, ite_mul, zero_mul, Finset.sum_sub_distrib, mul_assoc, ← Finset.mul_sum]
    rw [hone fun i => w k * P.e i j, ← w3 j hj]
    ring

/-- the result of the expansion -/
theorem good_of_inv {n : ℕ} {A : Mat ℝ} {b : Vec ℝ} (h2 : 2 ≤ n) {s : Expansion} (hI : Inv n A b s)
    (hc : ∀ i < s.eqs.nr, ∃ a ∈ s.explored, ∀ j < n, |s.eqs.e i j - a.e j| ≤ 1e-8 + 1e-5 * |a.e j|) :
    Good n A b ⟨s.eqs.colsTo (s.eqs.nc - 1), ⟨s.eqs.nr, fun i => - s.eqs.e i (s.eqs.nc - 1)⟩, rowList s.points, s.b⟩ := by
  have hnc : s.eqs.nc - 1 = n := by rw [hI.hull.nc]; omega
  rw [hnc]
  have hrow : ∀ i y, Spec.rowVal (s.eqs.colsTo n) i y = dotp n (s.eqs.e i) y := by
    intro i y
    have h1 : (s.eqs.colsTo n).nc = n := by show min n s.eqs.nc = n; rw [hI.hull.nc]; omega
    rw [Spec.rowVal, h1]
    rfl
  have hhull : ∀ y, Fs (s.eqs.colsTo n) ⟨s.eqs.nr, fun i => - s.eqs.e i n⟩ y ↔ Spec.InHull s.points y := by
    intro y
    rw [← hI.hull.mem]
    refine forall_congr' fun i => forall_congr' fun hi => ?_
    rw [hrow]
    show dotp n (s.eqs.e i) y ≤ - s.eqs.e i n ↔ dotp n (s.eqs.e i) y + s.eqs.e i n ≤ 0
    constructor <;> intro h <;> linarith
  refine ⟨hI.bb, ?_, rfl, hI.hull.unit, fun y hy => pr_hull hI.nc hI.pr ((hhull y).1 hy), ?_, fun h => by omega, ?_, ⟨?_, ?_⟩, fun _ => ?_⟩
  · show min n s.eqs.nc = n
    rw [hI.hull.nc]
    omega
  · intro D hD y hy i hi
    have hi : i < s.eqs.nr := hi
    obtain ⟨a, ha, hcl⟩ := hc i hi
    obtain ⟨p, hp, hmax⟩ := hI.seen a ha
    obtain ⟨z, hz, hzy⟩ := id hy
    have h3 : dotp n a.e y ≤ dotp n a.e p + 1e-7 := by
      rw [dotp_congr (fun _ _ => rfl) hzy]
      exact hmax z hz
    have h4 : dotp n (s.eqs.e i) p ≤ - s.eqs.e i n := by
      have := (hhull p).2 hp i hi
      rwa [hrow] at this
    have h5 := hD y p hy (pr_hull hI.nc hI.pr hp)
    have hu := (hI.unit a ha).2
    have h6 : dotp n (s.eqs.e i) y - dotp n (s.eqs.e i) p - (dotp n a.e y - dotp n a.e p) ≤ n * (1e-8 + 1e-5) * D := by
      rw [dotp, dotp, dotp, dotp, ← Finset.sum_sub_distrib, ← Finset.sum_sub_distrib, ← Finset.sum_sub_distrib]
      have hsum : n * (1e-8 + 1e-5) * D = ∑ j ∈ range n, (1e-8 + 1e-5) * D := by rw [Finset.sum_const, card_range, nsmul_eq_mul, mul_assoc]
      rw [hsum]
      refine Finset.sum_le_sum fun j hj => ?_
      have hj := mem_range.1 hj
      have h7 : |a.e j| ≤ 1 := by
        have : a.e j ^ 2 ≤ 1 := hu ▸ Finset.single_le_sum (f := fun j => a.e j ^ 2) (fun j _ => sq_nonneg _) (mem_range.2 hj)
        rw [← sq_abs] at this
        nlinarith [abs_nonneg (a.e j)]
      have h8 := hcl j hj
      have h9 := h5 j hj
      have h10 : (s.eqs.e i j - a.e j) * (y j - p j) ≤ (1e-8 + 1e-5) * D := by
        refine (le_abs_self _).trans ?_
        rw [abs_mul]
        refine mul_le_mul (h8.trans ?_) h9 (abs_nonneg _) (by norm_num)
        linarith
      refine le_trans (le_of_eq ?_) h10
      ring
    rw [hrow]
    show dotp n (s.eqs.e i) y ≤ - s.eqs.e i n + 1e-7 + n * (1e-8 + 1e-5) * D
    linarith
  · intro v hv
    obtain ⟨k, hk, rfl⟩ := List.mem_map.1 hv
    exact ⟨hI.nc, hI.pr k (List.mem_range.1 hk)⟩
  · intro v hv
    obtain ⟨k, hk, rfl⟩ := List.mem_map.1 hv
    exact ⟨hI.nc, (hhull _).2 (inHull_row (List.mem_range.1 hk))⟩
  · intro x hx
    obtain ⟨k, hk, h⟩ := vertex_of_hull hI.nc hhull hx
    exact ⟨_, List.mem_map.2 ⟨k, List.mem_range.2 hk, rfl⟩, h⟩
  · intro a c h j hj
    refine hI.full a c (fun k hk => ?_) j (by rw [hI.nc]; exact hj)
    rw [hI.nc]
    exact h _ ((hhull _).2 (inHull_row hk))

section
variable {L : Lib} (hL : LibSpec L) {Q : Qhull} (hQ : QhullSpec Q) {n : ℕ} {A : Mat ℝ} {b : Vec ℝ} (hB : Body n A b)
include hL hQ hB

omit hL hB in
theorem inv_start (h2 : 2 ≤ n) {P E : Mat ℝ} (hn : P.nc = n) (hp : ∀ k < P.nr, Pr n A b (P.e k)) (hE : Q.convexHull P = .ok E) :
    Inv n A b ⟨P, E, b, []⟩ := by
  have hf : Spec.FullDim P := by
    by_contra h
    obtain ⟨e, he⟩ := hQ.hull_flat P h
    rw [he] at hE
    cases hE
  obtain ⟨E', e1, e2, e3, e4, e5⟩ := hQ.hull P (by omega) hf
  rw [hE] at e1
  cases e1
  rw [hn] at e2 e3 e4 e5
  exact ⟨hn, hp, hf, ⟨e2, e3, e4, e5⟩, rfl, by simp, by simp, List.Pairwise.nil⟩

/-- every run of the expansion -/
theorem expand_any (h2 : 2 ≤ n) : ∀ (fuel : ℕ) (s s' : Expansion), Inv n A b s → expandLoop L Q A 1e-7 fuel s = .ok (some s') →
    Inv n A b s' ∧ ∀ i < s'.eqs.nr, ∃ a ∈ s'.explored, ∀ j < n, |s'.eqs.e i j - a.e j| ≤ 1e-8 + 1e-5 * |a.e j|
  | 0, s, s', _, h => by cases h
  | fuel + 1, s, s', hI, h => by
    obtain ⟨t, c, k1, k2, k3, k4, k5⟩ := expand_for hL hQ hB h2 (List.range s.eqs.nr) s hI fun i hi => List.mem_range.1 hi
    unfold expandLoop at h
    rw [k1] at h
    cases c with
    | true =>
      obtain rfl : t = s' := Option.some.inj (Except.ok.inj h)
      obtain ⟨m1, m2, m3, m4⟩ := k5 rfl
      refine ⟨k2, fun i hi => ?_⟩
      rw [m2] at hi ⊢
      exact m4 i (List.mem_range.2 hi)
    | false => exact expand_any h2 fuel t s' k2 h

omit hQ in
/-- the vertex found in a step of the construction of the simplex -/
theorem step_out {rand : List (Vec ℝ) → Vec ℝ} {i : ℕ} {vs vs' : List (Vec ℝ)} (hl : vs.length = i)
    (h : simplexStep L rand A b n 1e-7 vs i = .ok vs') : ∃ (a : Vec ℝ) (d : ℝ) (x1 x2 : Vec ℝ),
      plane_through_points (rand (vs.map fun v => v.slice 0 i)) (vs.map fun v => v.slice 0 i) = .ok (a, d) ∧ a.n = i ∧
      x1.n = A.nc ∧ Fs A b x1.e ∧ (∀ z, Fs A b z → dotp i a.e x1.e ≤ dotp i a.e z) ∧
      x2.n = A.nc ∧ Fs A b x2.e ∧ (∀ z, Fs A b z → dotp i a.e z ≤ dotp i a.e x2.e) ∧
      vs' = vs ++ [if |dotp i a.e x1.e - d| < 1e-7 then x2.slice 0 n else x1.slice 0 n] := by
  unfold simplexStep at h
  simp only at h
  obtain ⟨⟨a, d⟩, h1, h⟩ := Py.bind_eq_ok h
  have han : a.n = i := by
    have := plane_length h1
    rw [List.length_map, hl] at this
    exact this.symm
  split_ifs at h with hlt
  · cases h
  simp only [concat2, Py.ok_bind] at h
  have hfn : (a.append (Vec.zeros (A.nc - i))).n = A.nc := by show a.n + (A.nc - i) = A.nc; omega
  obtain ⟨s1, x1, a1, a2, -, a3, a4, a5⟩ := lp_dir hL hB (k := i) (by omega) hfn (a := a.e) (fun j hj => append_zeros_lt _ _ (by omega))
    (fun j _ hj => append_zeros_ge _ _ (by omega))
  obtain ⟨s2, x2, b1, b2, -, b3, b4, b5⟩ := lp_dir hL hB (k := i) (f := (a.append (Vec.zeros (A.nc - i))).neg) (by omega) hfn
    (a := fun j => -a.e j) (fun j hj => congrArg Neg.neg (append_zeros_lt _ _ (by omega))) (fun j _ hj => by
      show -_ = (0 : ℝ)
      rw [append_zeros_ge _ _ (by omega), neg_zero])
  simp only [dotp_neg, neg_le_neg_iff] at b5
  refine ⟨a, d, x1, x2, h1, han, a3, a4, a5, b3, b4, b5, ?_⟩
  have e2 : np.dotVV a (x1.slice 0 i) = .ok (dotp i a.e x1.e) := by
    have : a.n = (x1.slice 0 i).n := by show a.n = min i x1.n - 0; omega
    refine (if_pos this).trans ?_
    show Except.ok (a.dot (x1.slice 0 i)) = _
    rw [Vec.dot, slice0, han]
    rfl
  rw [a1, Py.ok_bind] at h
  simp only [argminTo, a2, Py.ok_bind, e2] at h
  split_ifs at h ⊢
  · rw [b1, Py.ok_bind] at h
    simp only [b2, Py.ok_bind] at h
    exact (Except.ok.inj h).symm
  · exact (Except.ok.inj h).symm

omit hQ in
/-- every run of a step of the construction of the simplex -/
theorem step_any {rand : List (Vec ℝ) → Vec ℝ} {i : ℕ} {vs vs' : List (Vec ℝ)} (hl : vs.length = i)
    (h : simplexStep L rand A b n 1e-7 vs i = .ok vs') (hv : ∀ v ∈ vs, v.n = n ∧ Pr n A b v.e) :
    vs'.length = vs.length + 1 ∧ ∀ v ∈ vs', v.n = n ∧ Pr n A b v.e := by
  have hle := hB.le
  obtain ⟨a, d, x1, x2, -, -, a3, a4, -, b3, b4, -, rfl⟩ := step_out hL hB hl h
  have hs : ∀ x : Vec ℝ, x.n = A.nc → Fs A b x.e → (x.slice 0 n).n = n ∧ Pr n A b (x.slice 0 n).e := fun x hx hf => by
    refine ⟨?_, x.e, hf, fun j _ => by rw [slice0]⟩
    show min n x.n - 0 = n
    omega
  refine ⟨by simp, fun v hv' => ?_⟩
  rcases List.mem_append.1 hv' with hv' | hv'
  · exact hv v hv'
  · rw [List.mem_singleton.1 hv']
    split_ifs
    · exact hs x2 b3 b4
    · exact hs x1 a3 a4

omit hQ in
theorem fold_any {rand : List (Vec ℝ) → Vec ℝ} : ∀ (k i : ℕ) (vs vs' : List (Vec ℝ)), vs.length = i →
    (List.range' i k).foldlM (simplexStep L rand A b n 1e-7) vs = .ok vs' → (∀ v ∈ vs, v.n = n ∧ Pr n A b v.e) → ∀ v ∈ vs', v.n = n ∧ Pr n A b v.e
  | 0, i, vs, vs', _, h, hv => by
    obtain rfl : vs = vs' := Except.ok.inj h
    exact hv
  | k + 1, i, vs, vs', hl, h, hv => by
    rw [List.range'_succ, List.foldlM_cons] at h
    obtain ⟨ws, h1, h⟩ := Py.bind_eq_ok h
    obtain ⟨h2, h3⟩ := step_any hL hB hl h1 hv
    exact fold_any k (i + 1) ws vs' (by omega) h h3

end

/-- the interval -/
theorem good_interval {A : Mat ℝ} {b : Vec ℝ} {v1 v2 : Vec ℝ} (h1 : v1.n = 1) (h2 : v2.n = 1) (p1 : Pr 1 A b v1.e) (p2 : Pr 1 A b v2.e)
    (h : ∀ z, Fs A b z → v1.e 0 ≤ z 0 ∧ z 0 ≤ v2.e 0) :
    Good 1 A b ⟨⟨2, 1, fun i _ => if i = 0 then 1 else -1⟩,
      ⟨2, fun i => if i = 0 then max (v1.e 0) (v2.e 0) else -min (v1.e 0) (v2.e 0)⟩, [v1, v2], b⟩ := by
  obtain ⟨z1, k1, k2⟩ := p1
  obtain ⟨z2, k3, k4⟩ := p2
  have e1 : v1.e 0 = z1 0 := k2 0 one_pos
  have e2 : v2.e 0 = z2 0 := k4 0 one_pos
  have hle : v1.e 0 ≤ v2.e 0 := by rw [e1]; exact (h z1 k1).2
  have hiff : ∀ y, Fs (⟨2, 1, fun i _ => if i = 0 then 1 else -1⟩ : Mat ℝ)
      ⟨2, fun i => if i = 0 then max (v1.e 0) (v2.e 0) else -min (v1.e 0) (v2.e 0)⟩ y ↔ v1.e 0 ≤ y 0 ∧ y 0 ≤ v2.e 0 := by
    intro y
    rw [max_eq_right hle, min_eq_left hle]
    constructor
    · intro hy
      have a1 := hy 0 (by norm_num)
      have a2 := hy 1 (by norm_num)
      simp [Spec.rowVal] at a1 a2
      exact ⟨a2, a1⟩
    · rintro ⟨a1, a2⟩ i hi
      have hi : i < 2 := hi
      interval_cases i <;> simpa [Spec.rowVal]
  have hpr : ∀ y, Pr 1 A b y ↔ v1.e 0 ≤ y 0 ∧ y 0 ≤ v2.e 0 := by
    intro y
    constructor
    · rintro ⟨z, hz, hy⟩
      rw [hy 0 one_pos]
      exact h z hz
    · rintro ⟨a1, a2⟩
      rcases hle.eq_or_lt with heq | hlt
      · exact ⟨z1, k1, fun j hj => by
          obtain rfl : j = 0 := by omega
          linarith⟩
      · have hd : 0 < v2.e 0 - v1.e 0 := by linarith
        have ht : (y 0 - v1.e 0) / (v2.e 0 - v1.e 0) * (v2.e 0 - v1.e 0) = y 0 - v1.e 0 := div_mul_cancel₀ _ hd.ne'
        refine ⟨_, fs_convex k1 k3 (t := (y 0 - v1.e 0) / (v2.e 0 - v1.e 0)) (div_nonneg (by linarith) hd.le) ((div_le_one hd).2 (by linarith)),
          fun j hj => ?_⟩
        obtain rfl : j = 0 := by omega
        rw [← e1, ← e2]
        linear_combination -ht
  refine ⟨rfl, rfl, rfl, fun i hi => ?_, fun y hy => (hpr y).2 ((hiff y).1 hy), fun D hD y hy i hi => ?_, fun _ y hy => (hiff y).2 ((hpr y).1 hy), ?_, ⟨?_, ?_⟩, fun h => by omega⟩
  · simp only [Finset.sum_range_one]
    split_ifs <;> norm_num
  · have := (hiff y).2 ((hpr y).1 hy) i hi
    have hD0 : 0 ≤ D := (abs_nonneg _).trans (hD y y hy hy 0 one_pos)
    refine this.trans ?_
    dsimp only
    push_cast
    linarith
  · intro v hv
    simp only [List.mem_cons, List.not_mem_nil, or_false] at hv
    rcases hv with rfl | rfl
    · exact ⟨h1, z1, k1, k2⟩
    · exact ⟨h2, z2, k3, k4⟩
  · intro v hv
    simp only [List.mem_cons, List.not_mem_nil, or_false] at hv
    rcases hv with rfl | rfl
    · exact ⟨h1, (hiff _).2 ⟨le_refl _, hle⟩⟩
    · exact ⟨h2, (hiff _).2 ⟨hle, le_refl _⟩⟩
  · intro x hx
    obtain ⟨a1, a2⟩ := (hiff x).1 hx.1
    have hm := hx.2 (fun _ => min (x 0 - v1.e 0) (v2.e 0 - x 0))
      ((hiff _).2 ⟨by have := le_min (sub_nonneg.2 a1) (sub_nonneg.2 a2); linarith,
        by have := min_le_right (x 0 - v1.e 0) (v2.e 0 - x 0); linarith⟩)
      ((hiff _).2 ⟨by have := min_le_left (x 0 - v1.e 0) (v2.e 0 - x 0); linarith,
        by have := le_min (sub_nonneg.2 a1) (sub_nonneg.2 a2); linarith⟩) 0 one_pos
    rcases min_choice (x 0 - v1.e 0) (v2.e 0 - x 0) with h | h <;> rw [h] at hm
    · exact ⟨v1, by simp, fun k hk => by
        obtain rfl : k = 0 := by omega
        linarith⟩
    · exact ⟨v2, by simp, fun k hk => by
        obtain rfl : k = 0 := by omega
        linarith⟩

/-- the columns of `A` with the columns `dims` first -/
def reordered (A : Mat ℝ) (dims : List ℕ) : Mat ℝ := (A.cols dims).happ (A.cols ((List.range A.nc).filter fun i => i ∉ dims))

section
variable {L : Lib} (hL : LibSpec L) {Q : Qhull} (hQ : QhullSpec Q) {A : Mat ℝ} {b : Vec ℝ} {dims : List ℕ}
  (hB : Body dims.length (reordered A dims) b) (hd : ∀ i ∈ dims, i < A.nc)
include hL hQ hB hd

omit hQ in
/-- the method after the columns are reordered -/
theorem method_eq (rand : List (Vec ℝ) → Vec ℝ) (fuel : ℕ) : ∃ v1 v2 : Vec ℝ, v1.n = dims.length ∧ v2.n = dims.length ∧
    Pr dims.length (reordered A dims) b v1.e ∧ Pr dims.length (reordered A dims) b v2.e ∧
    (∀ z, Fs (reordered A dims) b z → v1.e 0 ≤ z 0 ∧ z 0 ≤ v2.e 0) ∧
    convex_hull_method L Q rand fuel A b dims = if dims.length = 1 then
      .ok (some ⟨⟨2, 1, fun i _ => if i = 0 then 1 else -1⟩,
        ⟨2, fun i => if i = 0 then max (v1.e 0) (v2.e 0) else -min (v1.e 0) (v2.e 0)⟩, [v1, v2], b⟩)
    else do
      let vertices ← getInnerSimplex L rand (reordered A dims) b [v1, v2]
      let P ← np.vstack (vertices.map Mat.ofRow)
      let eqs ← Q.convexHull P
      let r ← expandLoop L Q (reordered A dims) 1e-7 fuel ⟨P, eqs, b, []⟩
      match r with
      | none => return none
      | some s => return some ⟨s.eqs.colsTo (s.eqs.nc - 1), ⟨s.eqs.nr, fun i => - s.eqs.e i (s.eqs.nc - 1)⟩, rowList s.points, s.b⟩ := by
  obtain ⟨v1, v2, h1, h2, h3, h4, h5, h6⟩ := two_vertices hL hB
  refine ⟨v1, v2, h2, h3, h4, h5, h6, ?_⟩
  have e1 : colsAt A dims = .ok (A.cols dims) := if_pos hd
  have e2 : colsAt A ((List.range A.nc).filter fun i => i ∉ dims) = .ok (A.cols ((List.range A.nc).filter fun i => i ∉ dims)) :=
    if_pos fun i hi => List.mem_range.1 (List.mem_filter.1 hi).1
  have e3 : np.hstack [A.cols dims, A.cols ((List.range A.nc).filter fun i => i ∉ dims)] = .ok (reordered A dims) := if_pos rfl
  unfold convex_hull_method hullMethod
  simp only [e1, e2, e3, h1, Py.ok_bind]
  rfl

theorem method_good {rand : List (Vec ℝ) → Vec ℝ} {fuel : ℕ} {r : Projected}
    (h : convex_hull_method L Q rand fuel A b dims = .ok (some r)) : Good dims.length (reordered A dims) b r := by
  have hpos := hB.pos
  obtain ⟨v1, v2, h1, h2, p1, p2, hz, he⟩ := method_eq hL hB hd rand fuel
  rw [he] at h
  by_cases hn : dims.length = 1
  · rw [if_pos hn] at h
    obtain rfl := Option.some.inj (Except.ok.inj h)
    rw [hn] at h1 h2 p1 p2 ⊢
    exact good_interval h1 h2 p1 p2 hz
  · rw [if_neg hn] at h
    obtain ⟨vs, k1, h⟩ := Py.bind_eq_ok h
    obtain ⟨P, k2, h⟩ := Py.bind_eq_ok h
    obtain ⟨E, k3, h⟩ := Py.bind_eq_ok h
    obtain ⟨s, k4, h⟩ := Py.bind_eq_ok h
    have hv : ∀ v ∈ vs, v.n = dims.length ∧ Pr dims.length (reordered A dims) b v.e := by
      unfold getInnerSimplex at k1
      rw [show np.listGet [v1, v2] 0 = .ok v1 from rfl, Py.ok_bind, h1] at k1
      exact fold_any hL hB _ 2 _ _ rfl k1 (by simp [h1, h2, p1, p2])
    obtain ⟨m1, m2, m3⟩ := vstack_ofRow k2
    have hne : 0 < vs.length := by
      rcases vs with _ | ⟨v, vs⟩
      · cases k2
      · simp
    have hPn : P.nc = dims.length := by rw [← m2 _ (List.getElem_mem hne), (hv _ (List.getElem_mem hne)).1]
    have hPp : ∀ k < P.nr, Pr dims.length (reordered A dims) b (P.e k) := fun k hk => by
      have : P.e k = (vs[k]'(by omega)).e := funext (m3 k _)
      rw [this]
      exact (hv _ (List.getElem_mem _)).2
    have hI := inv_start hQ (by omega) hPn hPp k3
    cases s with
    | none => cases h
    | some s =>
      obtain rfl := Option.some.inj (Except.ok.inj h)
      obtain ⟨a1, a2⟩ := expand_any hL hQ hB (by omega) fuel _ s hI k4
      exact good_of_inv (by omega) a1 a2

theorem method_total {rand : List (Vec ℝ) → Vec ℝ} (hr : RandSpec rand) {fuel : ℕ}
    (hW : dims.length = 1 ∨ Wide dims.length (reordered A dims) b ∧ (2 * 10 ^ 8 + 1) ^ dims.length < fuel) :
    ∃ r, convex_hull_method L Q rand fuel A b dims = .ok (some r) := by
  have hpos := hB.pos
  obtain ⟨v1, v2, h1, h2, p1, p2, hz, he⟩ := method_eq hL hB hd rand fuel
  rw [he]
  by_cases hn : dims.length = 1
  · rw [if_pos hn]
    exact ⟨_, rfl⟩
  · obtain ⟨hW, hf⟩ := hW.resolve_left hn
    rw [if_neg hn]
    obtain ⟨vs, k1, k2⟩ := inner_simplex hL hB hr hW h1 h2 p1 p2 hz
    obtain ⟨P, k3, k4, k5, k6⟩ := simplex_full k2
    obtain ⟨E, k7, -⟩ := hQ.hull P (by omega) k6
    have hI := inv_start hQ (by omega) k4 k5 k7
    obtain ⟨s, k8, -⟩ := expand_loop hL hQ hB (by omega) fuel _ hI (by simpa using hf)
    rw [k1, Py.ok_bind, k3, Py.ok_bind, k7, Py.ok_bind, k8, Py.ok_bind]
    exact ⟨_, rfl⟩

end

/-- the order of the columns -/
theorem order_perm {N : ℕ} {dims : List ℕ} (hd : ∀ i ∈ dims, i < N) (hnd : dims.Nodup) :
    let σ := dims ++ (List.range N).filter fun i => i ∉ dims
    σ.Nodup ∧ σ.toFinset = range N ∧ σ.length = N := by
  intro σ
  have h1 : σ.Nodup := by
    refine List.nodup_append.2 ⟨hnd, List.nodup_range.filter _, fun a ha b hb hab => ?_⟩
    subst hab
    exact (of_decide_eq_true (List.mem_filter.1 hb).2) ha
  have h2 : σ.toFinset = range N := by
    ext i
    simp only [σ, List.mem_toFinset, List.mem_append, List.mem_filter, List.mem_range, mem_range, decide_eq_true_eq]
    constructor
    · rintro (h | h)
      · exact hd i h
      · exact h.1
    · intro h
      by_cases hi : i ∈ dims
      · exact Or.inl hi
      · exact Or.inr ⟨h, hi⟩
  refine ⟨h1, h2, ?_⟩
  rw [← List.toFinset_card_of_nodup h1, h2, card_range]

theorem reordered_nc {A : Mat ℝ} {dims : List ℕ} (hd : ∀ i ∈ dims, i < A.nc) (hnd : dims.Nodup) : (reordered A dims).nc = A.nc := by
  have := (order_perm hd hnd).2.2
  rw [List.length_append] at this
  exact this

theorem reordered_row {A : Mat ℝ} {dims : List ℕ} (hd : ∀ i ∈ dims, i < A.nc) (hnd : dims.Nodup) (x z : ℕ → ℝ)
    (h : ∀ k < A.nc, z k = x ((dims ++ (List.range A.nc).filter fun i => i ∉ dims).getD k 0)) (i : ℕ) :
    Spec.rowVal (reordered A dims) i z = Spec.rowVal A i x := by
  obtain ⟨h1, h2, h3⟩ := order_perm hd hnd
  set σ := dims ++ (List.range A.nc).filter fun i => i ∉ dims with hσ
  rw [Spec.rowVal, Spec.rowVal, ← h2, ← sum_getD_nodup h1, h3, reordered_nc hd hnd]
  refine Finset.sum_congr rfl fun k hk => ?_
  rw [h k (mem_range.1 hk)]
  congr 1
  have : k < dims.length + ((List.range A.nc).filter fun i => i ∉ dims).length := by
    rw [← List.length_append, ← hσ, h3]
    exact mem_range.1 hk
  unfold reordered
  rcases Nat.lt_or_ge k dims.length with hlt | hge
  · rw [Mat.happ_e_lt _ _ _ (by exact hlt), hσ, List.getD_append _ _ _ _ hlt]
    rfl
  · obtain ⟨r, rfl⟩ := Nat.exists_eq_add_of_le hge
    have := Mat.happ_e_add (A.cols dims) (A.cols ((List.range A.nc).filter fun i => i ∉ dims)) i r
    rw [show (A.cols dims).nc = dims.length from rfl] at this
    rw [this, hσ, List.getD_append_right _ _ _ _ hge, Nat.add_sub_cancel_left]
    rfl

theorem unorder {N : ℕ} {dims : List ℕ} (hd : ∀ i ∈ dims, i < N) (hnd : dims.Nodup) (z : ℕ → ℝ) :
    ∃ x : ℕ → ℝ, ∀ k < N, z k = x ((dims ++ (List.range N).filter fun i => i ∉ dims).getD k 0) := by
  obtain ⟨h1, h2, h3⟩ := order_perm hd hnd
  refine ⟨fun i => z ((dims ++ (List.range N).filter fun i => i ∉ dims).idxOf i), fun k hk => ?_⟩
  show z k = z _
  rw [List.getD_eq_getElem _ _ (by omega), List.Nodup.idxOf_getElem h1]

/-- points of the polyhedron and of the one with reordered columns -/
theorem pr_iff {A : Mat ℝ} {b : Vec ℝ} {dims : List ℕ} (hd : ∀ i ∈ dims, i < A.nc) (hnd : dims.Nodup) (y : ℕ → ℝ) :
    Pr dims.length (reordered A dims) b y ↔ ∃ x, Fs A b x ∧ ∀ k < dims.length, y k = x (dims.getD k 0) := by
  obtain ⟨h1, h2, h3⟩ := order_perm hd hnd
  have hle : dims.length ≤ A.nc := by
    rw [List.length_append] at h3
    omega
  constructor
  · rintro ⟨z, hz, hy⟩
    obtain ⟨x, hx⟩ := unorder hd hnd z
    refine ⟨x, fun i hi => ?_, fun k hk => ?_⟩
    · rw [← reordered_row hd hnd _ z hx]
      exact hz i hi
    · rw [hy k hk, hx k (by omega), List.getD_append _ _ _ _ hk]
  · rintro ⟨x, hx, hy⟩
    refine ⟨fun k => x ((dims ++ (List.range A.nc).filter fun i => i ∉ dims).getD k 0), fun i hi => ?_, fun k hk => ?_⟩
    · rw [reordered_row hd hnd x _ fun k _ => rfl]
      exact hx i hi
    · rw [hy k hk]
      show _ = x _
      rw [List.getD_append _ _ _ _ hk]

theorem body_reordered {A : Mat ℝ} {b : Vec ℝ} {dims : List ℕ} (hd : ∀ i ∈ dims, i < A.nc) (hnd : dims.Nodup) (hne : dims ≠ [])
    (hb : b.n = A.nr) (hx : ∃ x, Fs A b x) (hbd : ∃ R, ∀ x, Fs A b x → ∀ j < A.nc, |x j| ≤ R) : Body dims.length (reordered A dims) b := by
  obtain ⟨h1, h2, h3⟩ := order_perm hd hnd
  have hle : dims.length ≤ A.nc := by
    rw [List.length_append] at h3
    omega
  refine ⟨List.length_pos_iff.2 hne, by rw [reordered_nc hd hnd]; exact hle, hb, ?_, ?_⟩
  · obtain ⟨x, hx⟩ := hx
    obtain ⟨z, hz, -⟩ := (pr_iff hd hnd (fun k => x (dims.getD k 0))).2 ⟨x, hx, fun _ _ => rfl⟩
    exact ⟨z, hz⟩
  · obtain ⟨R, hR⟩ := hbd
    refine ⟨R, fun z hz j hj => ?_⟩
    rw [reordered_nc hd hnd] at hj
    obtain ⟨x, hx⟩ := unorder hd hnd z
    rw [hx j hj]
    refine hR _ (fun i hi => ?_) _ ?_
    · rw [← reordered_row hd hnd _ z hx]
      exact hz i hi
    · have : (dims ++ (List.range A.nc).filter fun i => i ∉ dims).getD j 0 ∈ (dims ++ (List.range A.nc).filter fun i => i ∉ dims).toFinset := by
        rw [List.mem_toFinset, List.getD_eq_getElem _ _ (by omega)]
        exact List.getElem_mem _
      rw [h2] at this
      exact mem_range.1 this

end Verif.Projection
