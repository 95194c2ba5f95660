import Verif.Proofs.Projection

/- The simplex and the expansion loop of the convex hull method. -/
namespace Verif.Projection
open Finset Geom

theorem plane_generic {rand : List (Vec ℝ) → Vec ℝ} (hr : RandSpec rand) {pts : List (Vec ℝ)} {n : ℕ} (hn : 0 < n) (hl : pts.length = n)
    (hp : ∀ p ∈ pts, p.n = n) (hA : Spec.AffIndep n pts) : ∃ a d, plane_through_points (rand pts) pts = .ok (a, d) := by
  subst hl
  exact Props.C26_returns _ hn _ _ rfl hp fun c hc => hr.generic _ _ rfl hp hA c hc

section
variable {L : Lib} (hL : LibSpec L) {n : ℕ} {A : Mat ℝ} {b : Vec ℝ} (hB : Body n A b)
include hL hB

theorem simplex_step {rand : List (Vec ℝ) → Vec ℝ} (hr : RandSpec rand) (hW : Wide n A b) {i : ℕ} (h2 : 2 ≤ i) (hi : i ≤ n)
    {vs : List (Vec ℝ)} (hS : Simplex n A b i vs) :
    ∃ v, simplexStep L rand A b n 1e-7 vs i = .ok (vs ++ [v]) ∧ Simplex n A b (i + 1) (vs ++ [v]) := by
  have hle := hB.le
  set pts := vs.map fun v => v.slice 0 i with hpts
  have hpn : ∀ p ∈ pts, p.n = i := by
    intro p hp
    obtain ⟨v, hv, rfl⟩ := List.mem_map.1 hp
    have := hS.size v hv
    show min i v.n - 0 = i
    omega
  have hlen : pts.length = i := by rw [hpts, List.length_map, hS.len]
  obtain ⟨a, d, hpl⟩ := plane_generic hr (n := i) (by omega) hlen hpn
    (affIndep_map _ (fun v => slice0 v i) (affIndep_of_le (Nat.sub_le i 1) hS.indep))
  obtain ⟨c1, -, c3, -, c5, c6⟩ := Props.C26 _ _ _ _ (fun p hp q hq => (hpn p hp).trans (hpn q hq).symm) hpl
  have han : a.n = i := by omega
  rw [han] at c3 c5 c6
  have hon : ∀ v ∈ vs, dotp i a.e v.e = d := fun v hv => by
    have := c5 (v.slice 0 i) (List.mem_map_of_mem hv)
    rw [slice0] at this
    exact this
  have hfn : (a.append (Vec.zeros (A.nc - i))).n = A.nc := by show a.n + (A.nc - i) = A.nc; omega
  obtain ⟨s1, x1, a1, a2, -, a3, a4, a5⟩ := lp_dir hL hB (k := i) (by omega) hfn (a := a.e) (fun j hj => append_zeros_lt _ _ (by omega))
    (fun j _ hj => append_zeros_ge _ _ (by omega))
  obtain ⟨s2, x2, b1, b2, -, b3, b4, b5⟩ := lp_dir hL hB (k := i) (f := (a.append (Vec.zeros (A.nc - i))).neg) (by omega) hfn
    (a := fun j => -a.e j) (fun j hj => congrArg Neg.neg (append_zeros_lt _ _ (by omega))) (fun j _ hj => by
      show -_ = (0 : ℝ)
      rw [append_zeros_ge _ _ (by omega), neg_zero])
  simp only [dotp_neg, neg_le_neg_iff] at b5
  have hrun : simplexStep L rand A b n 1e-7 vs i = .ok (vs ++ [if |dotp i a.e x1.e - d| < 1e-7 then x2.slice 0 n else x1.slice 0 n]) := by
    unfold simplexStep
    simp only
    rw [← hpts, hpl, Py.ok_bind]
    simp only
    rw [if_neg (by omega), concat2, Py.ok_bind, a1, Py.ok_bind]
    have e1 : argminTo s1 i = .ok (x1.slice 0 i) := by simp only [argminTo, a2]
    have e2 : np.dotVV a (x1.slice 0 i) = .ok (dotp i a.e x1.e) := by
      have : a.n = (x1.slice 0 i).n := by show a.n = min i x1.n - 0; omega
      refine (if_pos this).trans ?_
      show Except.ok (a.dot (x1.slice 0 i)) = _
      rw [Vec.dot, slice0, han]
      rfl
    rw [e1, Py.ok_bind, e2, Py.ok_bind]
    split_ifs with h
    · rw [b1, Py.ok_bind]
      simp only [argminTo, b2, Py.ok_bind]
      rfl
    · simp only [argminTo, a2, Py.ok_bind]
      rfl
  set v := if |dotp i a.e x1.e - d| < 1e-7 then x2.slice 0 n else x1.slice 0 n with hv
  have hvn : v.n = n := by
    rw [hv]
    split_ifs
    · show min n x2.n - 0 = n; omega
    · show min n x1.n - 0 = n; omega
  have hvpr : Pr n A b v.e := by
    rw [hv]
    split_ifs
    · exact ⟨x2.e, b4, fun j _ => by rw [slice0]⟩
    · exact ⟨x1.e, a4, fun j _ => by rw [slice0]⟩
  have hoff : dotp i a.e v.e ≠ d := by
    rw [hv]
    split_ifs with h
    · rw [slice0]
      obtain ⟨z, z', hz, hz', hzz⟩ := wide_dir hW hi c3
      have k1 := a5 z hz
      have k2 := b5 z' hz'
      obtain ⟨p, hp⟩ : ∃ p, p ∈ vs := List.exists_mem_of_ne_nil _ (by intro h0; rw [h0] at hS; have := hS.len; simp at this; omega)
      obtain ⟨zp, q1, q2⟩ := hS.pr p hp
      have k3 : dotp i a.e zp = d := by rw [← hon p hp]; exact dotp_congr (fun _ _ => rfl) fun j hj => (q2 j (by omega)).symm
      have k4 := a5 zp q1
      rw [abs_lt] at h
      intro h5
      linarith
    · rw [slice0]
      intro h5
      rw [h5, sub_self, abs_zero] at h
      exact h (by norm_num)
  refine ⟨v, hrun, ⟨by simp [hS.len], ?_, ?_, ?_, ?_⟩⟩
  · intro w hw
    rcases List.mem_append.1 hw with hw | hw
    · exact hS.size w hw
    · rw [List.mem_singleton.1 hw]; exact hvn
  · intro w hw
    rcases List.mem_append.1 hw with hw | hw
    · exact hS.pr w hw
    · rw [List.mem_singleton.1 hw]; exact hvpr
  · have hi1 : i - 1 + 1 = i := by omega
    have := affIndep_snoc (k := i - 1) (v := v) hS.indep (a := a.e) (d := d) (by rw [hi1]; exact hon) (by rw [hi1]; exact hoff)
    rw [hi1] at this
    exact this
  · intro a' d' h
    rw [Nat.add_sub_cancel] at h ⊢
    obtain ⟨c, k1, k2⟩ := c6 a' d' fun p hp => by
      obtain ⟨w, hw, rfl⟩ := List.mem_map.1 hp
      rw [slice0]
      exact h w (List.mem_append_left _ hw)
    have k3 : dotp i a' v.e = d' := h v (List.mem_append_right _ (List.mem_singleton_self v))
    have k4 : dotp i a' v.e = c * dotp i a.e v.e := by
      rw [dotp, dotp, Finset.mul_sum]
      exact Finset.sum_congr rfl fun j hj => by rw [k2 j (mem_range.1 hj), mul_assoc]
    have k5 : c * (dotp i a.e v.e - d) = 0 := by rw [mul_sub, ← k4, k3, k1, sub_self]
    have hc : c = 0 := (mul_eq_zero.1 k5).resolve_right (sub_ne_zero.2 hoff)
    intro j hj
    rw [k2 j hj, hc, zero_mul]

theorem simplex_fold {rand : List (Vec ℝ) → Vec ℝ} (hr : RandSpec rand) (hW : Wide n A b) : ∀ (k i : ℕ) (vs : List (Vec ℝ)), 2 ≤ i → i + k = n + 1 →
    Simplex n A b i vs → ∃ vs', (List.range' i k).foldlM (simplexStep L rand A b n 1e-7) vs = .ok vs' ∧ Simplex n A b (n + 1) vs'
  | 0, i, vs, _, h, hS => ⟨vs, rfl, by rw [Nat.add_zero] at h; exact h ▸ hS⟩
  | k + 1, i, vs, h2, h, hS => by
    obtain ⟨v, h3, h4⟩ := simplex_step hL hB hr hW h2 (by omega) hS
    obtain ⟨vs', h5, h6⟩ := simplex_fold hr hW k (i + 1) _ (by omega) (by omega) h4
    refine ⟨vs', ?_, h6⟩
    rw [List.range'_succ, List.foldlM_cons, h3]
    exact h5

theorem two_simplex (hW : Wide n A b) {v1 v2 : Vec ℝ} (h1 : v1.n = n) (h2 : v2.n = n) (p1 : Pr n A b v1.e) (p2 : Pr n A b v2.e)
    (h : ∀ z, Fs A b z → v1.e 0 ≤ z 0 ∧ z 0 ≤ v2.e 0) : Simplex n A b 2 [v1, v2] := by
  have hpos := hB.pos
  have hlt : v1.e 0 < v2.e 0 := by
    obtain ⟨z, z', hz, hz', hd⟩ := wide_dir hW (i := 1) hpos (a := fun _ => 1) (by simp)
    simp only [dotp, Finset.sum_range_one, one_mul] at hd
    linarith [(h z hz).1, (h z' hz').2]
  refine ⟨rfl, by simp [h1, h2], by simp [p1, p2], ?_, ?_⟩
  · intro c k1 k2
    have k3 := k2 0 (by norm_num)
    rw [show (∑ k, c k) = c 0 + c 1 from Fin.sum_univ_two c] at k1
    rw [show (∑ k, c k * ([v1, v2][k]).e 0) = c 0 * v1.e 0 + c 1 * v2.e 0 from Fin.sum_univ_two (fun k : Fin 2 => c k * ([v1, v2][k]).e 0)] at k3
    have k4 : c 1 * (v2.e 0 - v1.e 0) = 0 := by
      have : c 0 = -c 1 := by linarith
      rw [this] at k3
      linarith
    have k5 : c 1 = 0 := (mul_eq_zero.1 k4).resolve_right (by linarith)
    have k6 : c 0 = 0 := by linarith
    funext k
    rcases k with ⟨k, hk⟩
    have hk' : k < 2 := hk
    interval_cases k
    · exact k6
    · exact k5
  · intro a d k j hj
    have hj : j < 1 := hj
    interval_cases j
    have e1 := k v1 (by simp)
    have e2 := k v2 (by simp)
    simp only [dotp, show 2 - 1 = 1 from rfl, Finset.sum_range_one] at e1 e2
    have : a 0 * (v2.e 0 - v1.e 0) = 0 := by linarith
    exact (mul_eq_zero.1 this).resolve_right (by linarith)

theorem inner_simplex {rand : List (Vec ℝ) → Vec ℝ} (hr : RandSpec rand) (hW : Wide n A b) {v1 v2 : Vec ℝ} (h1 : v1.n = n) (h2 : v2.n = n)
    (p1 : Pr n A b v1.e) (p2 : Pr n A b v2.e) (h : ∀ z, Fs A b z → v1.e 0 ≤ z 0 ∧ z 0 ≤ v2.e 0) :
    ∃ vs, getInnerSimplex L rand A b [v1, v2] = .ok vs ∧ Simplex n A b (n + 1) vs := by
  have hpos := hB.pos
  unfold getInnerSimplex
  rw [show np.listGet [v1, v2] 0 = .ok v1 from rfl, Py.ok_bind, h1]
  exact simplex_fold hL hB hr hW (n - 1) 2 _ le_rfl (by omega) (two_simplex hL hB hW h1 h2 p1 p2 h)

end

/-- the hull of the vertices of the simplex is full dimensional -/
theorem simplex_full {n : ℕ} {A : Mat ℝ} {b : Vec ℝ} {vs : List (Vec ℝ)} (hS : Simplex n A b (n + 1) vs) :
    ∃ P, np.vstack (vs.map Mat.ofRow) = .ok P ∧ P.nc = n ∧ (∀ k < P.nr, Pr n A b (P.e k)) ∧ Spec.FullDim P := by
  obtain ⟨P, hP, hn⟩ := vstack_ofRow_ok (l := vs) (by intro h0; have := hS.len; rw [h0] at this; simp at this) hS.size
  obtain ⟨h1, -, h3⟩ := vstack_ofRow hP
  have he : ∀ k (hk : k < vs.length), P.e k = (vs[k]).e := fun k hk => funext (h3 k hk)
  refine ⟨P, hP, hn, fun k hk => ?_, fun a d h => ?_⟩
  · rw [he k (by omega)]
    exact hS.pr _ (List.getElem_mem _)
  · rw [hn]
    refine hS.full a d fun v hv => ?_
    obtain ⟨k, hk, rfl⟩ := List.getElem_of_mem hv
    have := h k (by omega)
    rw [hn, he k hk] at this
    exact this

theorem inHull_row {P : Mat ℝ} {k : ℕ} (hk : k < P.nr) : Spec.InHull P (P.e k) :=
  ⟨fun i => if i = k then 1 else 0, fun i _ => by dsimp only; split_ifs <;> norm_num, by simp [hk], fun j _ => by simp [hk]⟩

theorem inHull_vapp {P B : Mat ℝ} {x : ℕ → ℝ} (h : Spec.InHull P x) : Spec.InHull (P.vapp B) x := by
  obtain ⟨w, h1, h2, h3⟩ := h
  have hs : ∀ f : ℕ → ℝ, ∑ k ∈ range (P.vapp B).nr, (if k < P.nr then w k else 0) * f k = ∑ k ∈ range P.nr, w k * f k := by
    intro f
    rw [show (P.vapp B).nr = P.nr + B.nr from rfl, Finset.sum_range_add]
    rw [Finset.sum_eq_zero (s := range B.nr) fun j _ => by rw [if_neg (by omega), zero_mul], add_zero]
    exact Finset.sum_congr rfl fun k hk => by rw [if_pos (mem_range.1 hk)]
  refine ⟨fun k => if k < P.nr then w k else 0, fun k _ => ?_, ?_, fun j hj => ?_⟩
  · dsimp only
    split_ifs with h
    · exact h1 k h
    · exact le_rfl
  · have := hs fun _ => 1
    simp only [mul_one] at this
    rw [this, h2]
  · have := hs fun k => (P.vapp B).e k j
    rw [this, h3 j hj]
    exact Finset.sum_congr rfl fun k hk => by rw [Mat.vapp_e_lt _ _ _ (mem_range.1 hk)]

theorem fullDim_vapp {P B : Mat ℝ} (h : Spec.FullDim P) : Spec.FullDim (P.vapp B) := by
  intro a d hd
  refine h a d fun k hk => ?_
  have := hd k (by show k < P.nr + B.nr; omega)
  rw [← this]
  exact Finset.sum_congr rfl fun j _ => by rw [Mat.vapp_e_lt _ _ _ hk]

/-- the equations describe the hull of the points -/
structure HullOf (n : ℕ) (P E : Mat ℝ) : Prop where
  nc : E.nc = n + 1
  unit : ∀ i < E.nr, ∑ j ∈ range n, E.e i j ^ 2 = 1
  mem : ∀ x, Spec.InHalfspaces n E x ↔ Spec.InHull P x
  facet : ∀ i < E.nr, Spec.IsFacet P (E.e i) (E.e i n)

/-- some point is on every facet -/
theorem HullOf.touch {n : ℕ} {P E : Mat ℝ} (h : HullOf n P E) (hP : P.nc = n) (h2 : 2 ≤ n) {i : ℕ} (hi : i < E.nr) :
    ∃ k < P.nr, dotp n (E.e i) (P.e k) + E.e i n = 0 := by
  by_contra hno
  push Not at hno
  have hf := h.facet i hi
  have hv : ∀ (a : ℕ → ℝ) (c : ℝ), ∃ t : ℝ, c = t * E.e i n ∧ ∀ j < P.nc, a j = t * E.e i j := fun a c =>
    hf a c fun k hk h0 => absurd (by rw [hP] at h0; exact h0) (hno k hk)
  obtain ⟨t0, -, h0⟩ := hv (fun j => if j = 0 then 1 else 0) 0
  obtain ⟨t1, -, h1⟩ := hv (fun j => if j = 1 then 1 else 0) 0
  have e1 := h0 0 (by omega)
  have e2 := h0 1 (by omega)
  have e3 := h1 1 (by omega)
  simp only [if_true] at e1 e3
  rw [if_neg one_ne_zero] at e2
  have h4 : t0 ≠ 0 := by rintro rfl; simp at e1
  have h5 : E.e i 1 = 0 := (mul_eq_zero.1 e2.symm).resolve_left h4
  rw [h5, mul_zero] at e3
  exact one_ne_zero e3

/-- the invariant of the expansion -/
structure Inv (n : ℕ) (A : Mat ℝ) (b : Vec ℝ) (s : Expansion) : Prop where
  nc : s.points.nc = n
  pr : ∀ k < s.points.nr, Pr n A b (s.points.e k)
  full : Spec.FullDim s.points
  hull : HullOf n s.points s.eqs
  bb : s.b = b
  unit : ∀ a ∈ s.explored, a.n = n ∧ ∑ j ∈ range n, a.e j ^ 2 = 1
  seen : ∀ a ∈ s.explored, ∃ p, Spec.InHull s.points p ∧ ∀ z, Fs A b z → dotp n a.e z ≤ dotp n a.e p + 1e-7
  sep : s.explored.Pairwise fun a2 a => allclose (some a) (some a2) = false

theorem scaleRow_one (E : Mat ℝ) (n i : ℕ) : scaleRow E n i 1 = E := by
  unfold scaleRow
  congr 1
  funext k j
  split_ifs <;> simp

theorem divS_one (v : Vec ℝ) : v.divS 1 = v := by
  unfold Vec.divS
  simp

theorem allclose_self (a : Vec ℝ) : allclose (some a) (some a) = true := by
  simp only [allclose, decide_eq_true_eq]
  intro i _
  rw [sub_self, abs_zero]
  positivity

/-- one iteration of the `for` loop: the facet is skipped, or a point that maximises its normal is found and added if it is off the facet -/
theorem expandFor_cons {L : Lib} (hL : LibSpec L) (Q : Qhull) {n : ℕ} {A : Mat ℝ} {b : Vec ℝ} (hB : Body n A b) {s : Expansion} (hI : Inv n A b s)
    {i : ℕ} (hi : i < s.eqs.nr) (is : List ℕ) :
    ∃ x : Vec ℝ, x.n = A.nc ∧ Fs A b x.e ∧ (∀ z, Fs A b z → dotp n (s.eqs.e i) z ≤ dotp n (s.eqs.e i) x.e) ∧
      expandFor L Q A 1e-7 (i :: is) s =
        if (s.explored.any fun a2 => allclose (some ⟨n, s.eqs.e i⟩) (some a2)) then expandFor L Q A 1e-7 is s
        else if dotp n (s.eqs.e i) x.e + s.eqs.e i n > 1e-7 then
          Q.convexHull (s.points.vapp (Mat.ofRow (x.slice 0 n))) >>= fun E =>
            .ok (⟨s.points.vapp (Mat.ofRow (x.slice 0 n)), E, b, s.explored ++ [⟨n, s.eqs.e i⟩]⟩, false)
        else expandFor L Q A 1e-7 is ⟨s.points, s.eqs, b, s.explored ++ [⟨n, s.eqs.e i⟩]⟩ := by
  have hle := hB.le
  have hnorm : vnorm ⟨n, s.eqs.e i⟩ = 1 := by
    unfold vnorm
    show Real.sqrt (∑ j ∈ range n, s.eqs.e i j ^ 2) = 1
    rw [hI.hull.unit i hi, Real.sqrt_one]
  set a : Vec ℝ := ⟨n, s.eqs.e i⟩ with ha
  have hs1 : ({ s with eqs := scaleRow s.eqs n i 1, b := s.b.divS 1 } : Expansion) = s := by rw [scaleRow_one, divS_one]
  have hfn : (a.neg.append (Vec.zeros (A.nc - n))).n = A.nc := by show n + (A.nc - n) = A.nc; omega
  obtain ⟨sol, x, b1, b2, b3, b4, b5, b6⟩ := lp_dir hL hB (k := n) (f := a.neg.append (Vec.zeros (A.nc - n))) (by omega) hfn
    (a := fun j => -a.e j) (fun j hj => append_zeros_lt _ _ (by exact hj)) (fun j _ hj => append_zeros_ge _ _ (by exact hj))
  simp only [dotp_neg, neg_le_neg_iff] at b3 b6
  refine ⟨x, b4, b5, b6, ?_⟩
  conv_lhs => unfold expandFor
  simp only [hI.nc]
  rw [← ha, hnorm, divS_one, hs1]
  refine if_congr Iff.rfl rfl ?_
  rw [if_neg (by omega), concat2, Py.ok_bind]
  simp only [hI.bb, divS_one, scaleRow_one]
  rw [b1, Py.ok_bind]
  simp only [Poly.negMin, b3, Py.ok_bind, neg_neg, sub_neg_eq_add, argminTo, b2]
  rfl

/-- the invariant after a facet is explored that is not expanded -/
theorem Inv.explore {n : ℕ} {A : Mat ℝ} {b : Vec ℝ} (h2 : 2 ≤ n) {s : Expansion} (hI : Inv n A b s) {i : ℕ} (hii : i < s.eqs.nr)
    (hany : ¬ (s.explored.any fun a2 => allclose (some ⟨n, s.eqs.e i⟩) (some a2)) = true) {x : Vec ℝ}
    (b6 : ∀ z, Fs A b z → dotp n (s.eqs.e i) z ≤ dotp n (s.eqs.e i) x.e) (hex : ¬ dotp n (s.eqs.e i) x.e + s.eqs.e i n > 1e-7) :
    Inv n A b ⟨s.points, s.eqs, b, s.explored ++ [⟨n, s.eqs.e i⟩]⟩ := by
  refine ⟨hI.nc, hI.pr, hI.full, hI.hull, rfl, fun a' h => ?_, fun a' h => ?_, ?_⟩
  · rcases List.mem_append.1 h with h | h
    · exact hI.unit a' h
    · rw [List.mem_singleton.1 h]
      exact ⟨rfl, hI.hull.unit i hii⟩
  · rcases List.mem_append.1 h with h | h
    · exact hI.seen a' h
    · rw [List.mem_singleton.1 h]
      obtain ⟨k, hk, hk0⟩ := hI.hull.touch hI.nc h2 hii
      refine ⟨_, inHull_row hk, fun z hz => ?_⟩
      have := b6 z hz
      show dotp n (s.eqs.e i) z ≤ dotp n (s.eqs.e i) (s.points.e k) + 1e-7
      linarith
  · show (s.explored ++ [_]).Pairwise _
    rw [List.pairwise_append]
    refine ⟨hI.sep, List.pairwise_singleton _ _, fun a2 h3 a' h4 => ?_⟩
    rw [List.mem_singleton.1 h4]
    by_contra h5
    exact hany (List.any_eq_true.2 ⟨a2, h3, by simpa using h5⟩)

theorem expand_for {L : Lib} (hL : LibSpec L) {Q : Qhull} (hQ : QhullSpec Q) {n : ℕ} {A : Mat ℝ} {b : Vec ℝ} (hB : Body n A b) (h2 : 2 ≤ n) :
    ∀ (is : List ℕ) (s : Expansion), Inv n A b s → (∀ i ∈ is, i < s.eqs.nr) → ∃ s' c, expandFor L Q A 1e-7 is s = .ok (s', c) ∧ Inv n A b s' ∧
      s.explored.length ≤ s'.explored.length ∧ (c = false → s.explored.length < s'.explored.length) ∧
      (c = true → s'.points = s.points ∧ s'.eqs = s.eqs ∧ s.explored ⊆ s'.explored ∧
        ∀ i ∈ is, ∃ a ∈ s'.explored, ∀ j < n, |s.eqs.e i j - a.e j| ≤ 1e-8 + 1e-5 * |a.e j|)
  | [], s, hI, _ => ⟨s, true, rfl, hI, le_rfl, by simp, fun _ => ⟨rfl, rfl, fun _ h => h, by simp⟩⟩
  | i :: is, s, hI, hi => by
    have hii : i < s.eqs.nr := hi i (by simp)
    obtain ⟨x, b4, b5, b6, hrun⟩ := expandFor_cons hL Q hB hI hii is
    rw [hrun]
    set a : Vec ℝ := ⟨n, s.eqs.e i⟩ with ha
    by_cases hany : (s.explored.any fun a2 => allclose (some a) (some a2)) = true
    · rw [if_pos hany]
      obtain ⟨s', c, k1, k2, k3, k4, k5⟩ := expand_for hL hQ hB h2 is s hI fun k hk => hi k (by simp [hk])
      refine ⟨s', c, k1, k2, k3, k4, fun hc => ?_⟩
      obtain ⟨m1, m2, m3, m4⟩ := k5 hc
      refine ⟨m1, m2, m3, fun k hk => ?_⟩
      rcases List.mem_cons.1 hk with rfl | hk
      · obtain ⟨a2, h3, h4⟩ := List.any_eq_true.1 hany
        simp only [allclose, decide_eq_true_eq] at h4
        exact ⟨a2, m3 h3, h4⟩
      · exact m4 k hk
    · rw [if_neg hany]
      have hsep : (s.explored ++ [a]).Pairwise fun a2 a => allclose (some a) (some a2) = false := by
        rw [List.pairwise_append]
        refine ⟨hI.sep, List.pairwise_singleton _ _, fun a2 h3 a' h4 => ?_⟩
        rw [List.mem_singleton.1 h4]
        by_contra h5
        exact hany (List.any_eq_true.2 ⟨a2, h3, by simpa using h5⟩)
      have hunit : ∀ a' ∈ s.explored ++ [a], a'.n = n ∧ ∑ j ∈ range n, a'.e j ^ 2 = 1 := by
        intro a' h
        rcases List.mem_append.1 h with h | h
        · exact hI.unit a' h
        · rw [List.mem_singleton.1 h]
          exact ⟨rfl, hI.hull.unit i hii⟩
      by_cases hex : dotp n (s.eqs.e i) x.e + s.eqs.e i n > 1e-7
      · rw [if_pos hex]
        set P' := s.points.vapp (Mat.ofRow (x.slice 0 n)) with hP'
        have hnc' : P'.nc = n := hI.nc
        obtain ⟨E, e1, e2, e3, e4, e5⟩ := hQ.hull P' (by rw [hnc']; exact h2) (fullDim_vapp hI.full)
        rw [hnc'] at e2 e3 e4 e5
        rw [e1, Py.ok_bind]
        have hlast : P'.e s.points.nr = x.e := by
          funext j
          have := Mat.vapp_e_add s.points (Mat.ofRow (x.slice 0 n)) 0 j
          rw [Nat.add_zero] at this
          rw [hP', this]
          show (x.slice 0 n).e j = x.e j
          rw [slice0]
        have hnr' : P'.nr = s.points.nr + 1 := rfl
        refine ⟨_, false, rfl, ⟨hnc', fun k hk => ?_, fullDim_vapp hI.full, ⟨e2, e3, e4, e5⟩, rfl, hunit, fun a' h => ?_, hsep⟩, ?_, ?_, by simp⟩
        · have hk : k < s.points.nr + 1 := hk
          rcases Nat.lt_succ_iff_lt_or_eq.1 hk with hk | rfl
          · have : P'.e k = s.points.e k := funext fun j => Mat.vapp_e_lt _ _ _ hk
            show Pr n A b (P'.e k)
            rw [this]
            exact hI.pr k hk
          · show Pr n A b (P'.e _)
            rw [hlast]
            exact ⟨x.e, b5, fun _ _ => rfl⟩
        · rcases List.mem_append.1 h with h | h
          · obtain ⟨p, h3, h4⟩ := hI.seen a' h
            exact ⟨p, inHull_vapp h3, h4⟩
          · rw [List.mem_singleton.1 h]
            refine ⟨P'.e s.points.nr, inHull_row (by rw [hnr']; omega), fun z hz => ?_⟩
            rw [hlast]
            have : dotp n a.e z ≤ dotp n a.e x.e := b6 z hz
            linarith
        · simp
        · simp
      · rw [if_neg hex]
        have hI2 := hI.explore h2 hii hany b6 hex
        obtain ⟨s', c, k1, k2, k3, k4, k5⟩ := expand_for hL hQ hB h2 is _ hI2 fun k hk => hi k (by simp [hk])
        rw [List.length_append, List.length_singleton] at k3
        refine ⟨s', c, k1, k2, by omega, fun _ => by omega, fun hc => ?_⟩
        obtain ⟨m1, m2, m3, m4⟩ := k5 hc
        refine ⟨m1, m2, fun a' h => m3 (List.mem_append_left _ h), fun k hk => ?_⟩
        rcases List.mem_cons.1 hk with rfl | hk
        · refine ⟨a, m3 (List.mem_append_right _ (List.mem_singleton_self a)), fun j hj => ?_⟩
          have := allclose_self a
          simp only [allclose, decide_eq_true_eq] at this
          exact this j hj
        · exact m4 k hk

/-- the cell of side `1e-8` of a unit vector -/
noncomputable def cell (n : ℕ) (a : Vec ℝ) : Fin n → ℤ := fun j => ⌊a.e j * 10 ^ 8⌋

/-- the number of directions that can be explored -/
theorem explored_le {n : ℕ} {l : List (Vec ℝ)} (hu : ∀ a ∈ l, a.n = n ∧ ∑ j ∈ range n, a.e j ^ 2 = 1)
    (hs : l.Pairwise fun a2 a => allclose (some a) (some a2) = false) : l.length ≤ (2 * 10 ^ 8 + 1) ^ n := by
  classical
  have hnd : (l.map (cell n)).Nodup := by
    rw [List.Nodup, List.pairwise_map]
    refine List.Pairwise.imp_of_mem (fun {a2 a} h2 h1 h heq => ?_) hs
    have : allclose (some a) (some a2) = true := by
      simp only [allclose, decide_eq_true_eq]
      intro j hj
      rw [(hu a h1).1] at hj
      have hf := congrFun heq ⟨j, hj⟩
      have := Int.abs_sub_lt_one_of_floor_eq_floor hf.symm
      rw [← sub_mul, abs_mul, abs_of_pos (by norm_num : (0 : ℝ) < 10 ^ 8)] at this
      have h0 : 0 ≤ 1e-5 * |a2.e j| := by positivity
      norm_num at this ⊢
      linarith
    rw [h] at this
    cases this
  have hsub : (l.map (cell n)).toFinset ⊆ Fintype.piFinset fun _ : Fin n => Finset.Icc (-10 ^ 8 : ℤ) (10 ^ 8) := by
    intro c hc
    obtain ⟨a, ha, rfl⟩ := List.mem_map.1 (List.mem_toFinset.1 hc)
    rw [Fintype.mem_piFinset]
    intro j
    have h1 : |a.e j| ≤ 1 := by
      have : a.e j ^ 2 ≤ 1 := (hu a ha).2 ▸ Finset.single_le_sum (f := fun j => a.e j ^ 2) (fun j _ => sq_nonneg _) (mem_range.2 j.2)
      rw [← sq_abs] at this
      nlinarith [abs_nonneg (a.e j)]
    rw [abs_le] at h1
    rw [Finset.mem_Icc]
    constructor
    · refine Int.le_floor.2 ?_
      push_cast
      nlinarith
    · have : (⌊a.e j * 10 ^ 8⌋ : ℝ) ≤ 10 ^ 8 := (Int.floor_le _).trans (by nlinarith)
      show ⌊a.e j * 10 ^ 8⌋ ≤ 10 ^ 8
      exact_mod_cast this
  have hcard := Finset.card_le_card hsub
  rw [List.toFinset_card_of_nodup hnd, List.length_map, Fintype.card_piFinset] at hcard
  refine hcard.trans (le_of_eq ?_)
  simp only [Int.card_Icc, Finset.prod_const, Finset.card_univ, Fintype.card_fin]
  norm_num
  rfl

theorem expand_loop {L : Lib} (hL : LibSpec L) {Q : Qhull} (hQ : QhullSpec Q) {n : ℕ} {A : Mat ℝ} {b : Vec ℝ} (hB : Body n A b) (h2 : 2 ≤ n) :
    ∀ (fuel : ℕ) (s : Expansion), Inv n A b s → (2 * 10 ^ 8 + 1) ^ n < fuel + s.explored.length →
      ∃ s', expandLoop L Q A 1e-7 fuel s = .ok (some s') ∧ Inv n A b s' ∧
        ∀ i < s'.eqs.nr, ∃ a ∈ s'.explored, ∀ j < n, |s'.eqs.e i j - a.e j| ≤ 1e-8 + 1e-5 * |a.e j|
  | 0, s, hI, h => absurd (explored_le hI.unit hI.sep) (by omega)
  | fuel + 1, s, hI, h => by
    obtain ⟨s', c, k1, k2, k3, k4, k5⟩ := expand_for hL hQ hB h2 (List.range s.eqs.nr) s hI fun i hi => List.mem_range.1 hi
    cases c with
    | true =>
      obtain ⟨m1, m2, m3, m4⟩ := k5 rfl
      refine ⟨s', ?_, k2, fun i hi => ?_⟩
      · unfold expandLoop
        rw [k1]
        rfl
      · rw [m2] at hi ⊢
        exact m4 i (List.mem_range.2 hi)
    | false =>
      have := k4 rfl
      obtain ⟨s'', h3, h4, h5⟩ := expand_loop hL hQ hB h2 fuel s' k2 (by omega)
      refine ⟨s'', ?_, h4, h5⟩
      unfold expandLoop
      rw [k1]
      exact h3

end Verif.Projection
