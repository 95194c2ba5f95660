import Verif.Proofs.Polygon
import Verif.Proofs.QhullExists
import Verif.Proofs.GeomUtils
import Verif.Proofs.Polyhedron

/- The vertices of a polyhedron projected on two coordinates. -/
namespace Verif.Plot
open Finset Matrix Verif.Math

theorem fullDim_orient {P : Mat ℝ} (h2 : P.nc = 2) (hP : Spec.FullDim P) :
    ∃ i < P.nr, ∃ j < P.nr, ∃ k < P.nr, Spec.orient (Spec.pt P i) (Spec.pt P j) (Spec.pt P k) ≠ 0 := by
  by_contra hno
  push Not at hno
  unfold Spec.FullDim at hP
  rw [h2] at hP
  simp only [sum_range_succ, range_zero, sum_empty, zero_add] at hP
  by_cases hall : ∀ i < P.nr, Spec.pt P i = Spec.pt P 0
  · have := hP (fun j => if j = 0 then 1 else 0) (P.e 0 0) (fun k hk => by
      have := congrArg Prod.fst (hall k hk)
      simpa [Spec.pt] using this) 0 (by norm_num)
    norm_num at this
  · push Not at hall
    obtain ⟨i, hi, hne⟩ := hall
    have h0 : 0 < P.nr := by omega
    set a : ℕ → ℝ := fun j => if j = 0 then -(P.e i 1 - P.e 0 1) else P.e i 0 - P.e 0 0 with ha
    have key := hP a (a 0 * P.e 0 0 + a 1 * P.e 0 1) fun k hk => by
      have := hno 0 h0 i hi k hk
      simp only [Spec.orient, Spec.pt] at this
      simp only [ha, if_true, one_ne_zero, if_false]
      linarith
    have k0 := key 0 (by norm_num)
    have k1 := key 1 (by norm_num)
    simp only [ha, if_true, one_ne_zero, if_false] at k0 k1
    exact hne (Prod.ext (by show P.e i 0 = P.e 0 0; linarith) (by show P.e i 1 = P.e 0 1; linarith))

/-- the contract can be met -/
theorem exists_hullVertices : ∃ hv, HullVerticesSpec hv := by
  classical
  have key : ∀ P : Mat ℝ, ∃ l : List ℕ, P.nc = 2 → Spec.FullDim P → Spec.CcwHull P l := by
    intro P
    by_cases h : P.nc = 2 ∧ Spec.FullDim P
    · obtain ⟨i, hi, j, hj, k, hk, hijk⟩ := fullDim_orient h.1 h.2
      obtain ⟨l, l1, l2, l3, l4⟩ := Polygon.exists_ccw ((range P.nr).image (Spec.pt P))
        ⟨_, mem_image_of_mem _ (mem_range.2 hi), _, mem_image_of_mem _ (mem_range.2 hj), _, mem_image_of_mem _ (mem_range.2 hk), hijk⟩
      have hidx : ∀ p ∈ l, ∃ k, k < P.nr ∧ Spec.pt P k = p := fun p hp => by
        obtain ⟨k, hk, e⟩ := mem_image.1 (l1 p hp)
        exact ⟨k, mem_range.1 hk, e⟩
      let f : ℝ × ℝ → ℕ := fun p => if hp : p ∈ l then (hidx p hp).choose else 0
      have hf : ∀ p ∈ l, f p < P.nr ∧ Spec.pt P (f p) = p := fun p hp => by
        simp only [f, dif_pos hp]
        exact (hidx p hp).choose_spec
      have hget : ∀ (a i : ℕ), (l.map f)[a]? = some i → l[a]? = some (Spec.pt P i) := by
        intro a i h
        rw [List.getElem?_map] at h
        obtain ⟨p, hp, rfl⟩ := Option.map_eq_some_iff.1 h
        rw [hp, (hf p (List.mem_of_getElem? hp)).2]
      refine ⟨l.map f, fun _ _ => ⟨?_, by rwa [List.length_map], ?_, ?_⟩⟩
      · intro k hk
        obtain ⟨p, hp, rfl⟩ := List.mem_map.1 hk
        exact (hf p hp).1
      · intro a b c i j k hab hbc ha hb hc
        exact l3 a b c _ _ _ hab hbc (hget _ _ ha) (hget _ _ hb) (hget _ _ hc)
      · intro k hk
        refine convexHull_mono (fun q hq => ?_) (l4 _ (mem_image_of_mem _ (mem_range.2 hk)))
        exact ⟨f q, List.mem_map.2 ⟨q, hq, rfl⟩, (hf q hq).2.symm⟩
    · exact ⟨[], fun h1 h2 => absurd ⟨h1, h2⟩ h⟩
  choose hv hhv using key
  exact ⟨hv, hhv⟩

/-- the closed path through the listed rows encloses the hull of all the rows -/
theorem enclosed_hull {P : Mat ℝ} (h2 : P.nc = 2) {l : List ℕ} (h : Spec.CcwHull P l) {p0 : ℝ × ℝ} (h0 : (l.map (Spec.pt P))[0]? = some p0) (y : ℝ × ℝ) :
    y ∈ Spec.enclosed (l.map (Spec.pt P) ++ [p0]) ↔ Spec.InHull P fun j => if j = 0 then y.1 else y.2 := by
  have hget : ∀ (a : ℕ) (q : ℝ × ℝ), (l.map (Spec.pt P))[a]? = some q → ∃ i, l[a]? = some i ∧ q = Spec.pt P i := by
    intro a q h
    rw [List.getElem?_map] at h
    obtain ⟨i, hi, rfl⟩ := Option.map_eq_some_iff.1 h
    exact ⟨i, hi, rfl⟩
  rw [Polygon.enclosed_eq h0 (by rw [List.length_map]; exact h.three) fun a b c p q r hab hbc ha hb hc => by
    obtain ⟨i, hi, rfl⟩ := hget _ _ ha
    obtain ⟨j, hj, rfl⟩ := hget _ _ hb
    obtain ⟨k, hk, rfl⟩ := hget _ _ hc
    exact h.turn a b c i j k hab hbc hi hj hk]
  have hset : convexHull ℝ {q | q ∈ l.map (Spec.pt P)} = convexHull ℝ (Spec.pt P '' {k | k < P.nr}) := by
    apply Set.Subset.antisymm
    · refine convexHull_mono fun q hq => ?_
      obtain ⟨k, hk, rfl⟩ := List.mem_map.1 hq
      exact ⟨k, h.range k hk, rfl⟩
    · refine convexHull_min ?_ (convex_convexHull ℝ _)
      rintro _ ⟨k, hk, rfl⟩
      refine convexHull_mono ?_ (h.hull k hk)
      rintro q ⟨i, hi, rfl⟩
      exact List.mem_map.2 ⟨i, hi, rfl⟩
  rw [hset]
  unfold Spec.InHull
  rw [h2]
  constructor
  · intro hy
    have : convexHull ℝ (Spec.pt P '' {k | k < P.nr}) ⊆ {y : ℝ × ℝ | ∃ w : ℕ → ℝ, (∀ k < P.nr, 0 ≤ w k) ∧ ∑ k ∈ range P.nr, w k = 1 ∧
        ∀ j < 2, (if j = 0 then y.1 else y.2) = ∑ k ∈ range P.nr, w k * P.e k j} := by
      refine convexHull_min ?_ ?_
      · rintro _ ⟨k, hk, rfl⟩
        refine ⟨fun m => if m = k then 1 else 0, fun m _ => by show (0:ℝ) ≤ if m = k then 1 else 0; split_ifs <;> norm_num, by rw [sum_ite_eq' (range P.nr) k]; exact if_pos (mem_range.2 hk), ?_⟩
        intro j hj
        simp only [ite_mul, one_mul, zero_mul]
        rw [sum_ite_eq' (range P.nr) k, if_pos (mem_range.2 hk)]
        interval_cases j <;> simp [Spec.pt]
      · rintro x ⟨w, w1, w2, w3⟩ z ⟨u, u1, u2, u3⟩ s t hs ht hst
        refine ⟨fun k => s * w k + t * u k, fun k hk => add_nonneg (mul_nonneg hs (w1 k hk)) (mul_nonneg ht (u1 k hk)), ?_, fun j hj => ?_⟩
        · rw [sum_add_distrib, ← mul_sum, ← mul_sum, w2, u2, mul_one, mul_one, hst]
        · have a1 := w3 j hj
          have a2 := u3 j hj
          simp only [add_mul, sum_add_distrib, mul_assoc, ← mul_sum]
          rw [← a1, ← a2]
          split_ifs <;> simp
    exact this hy
  · rintro ⟨w, w1, w2, w3⟩
    have e : y = ∑ k ∈ range P.nr, w k • Spec.pt P k := by
      have e0 := w3 0 (by norm_num)
      have e1 := w3 1 (by norm_num)
      simp only [if_true, one_ne_zero, if_false] at e0 e1
      ext
      · rw [Prod.fst_sum, e0]; simp [Spec.pt]
      · rw [Prod.snd_sum, e1]; simp [Spec.pt]
    rw [e]
    exact (convex_convexHull ℝ _).sum_mem (fun k hk => w1 k (mem_range.1 hk)) w2
      fun k hk => subset_convexHull ℝ _ ⟨k, mem_range.1 hk, rfl⟩

/-- a linear function on a bounded polyhedron has its maximum at a vertex -/
theorem exists_vertex_max {n : ℕ} {A : Mat ℝ} {b : Vec ℝ} {C : Mat ℝ} {d : Vec ℝ} (hs : Spec.PolyShape n A b C d) (hbd : Spec.IsBounded n A b C d)
    {x : ℕ → ℝ} (hx : Spec.InPoly A b C d x) (g : ℕ → ℝ) :
    ∃ v, Spec.IsVertex n (Spec.InPoly A b C d) v ∧ ∑ j ∈ range n, g j * x j ≤ ∑ j ∈ range n, g j * v j := by
  obtain ⟨s1, s2, s3, s4⟩ := hs
  let M : Matrix (Fin A.nr ⊕ Fin C.nr ⊕ Fin C.nr) (Fin n) ℝ := fun i j => match i with
    | .inl i => A.e i j
    | .inr (.inl i) => C.e i j
    | .inr (.inr i) => -C.e i j
  let c : Fin A.nr ⊕ Fin C.nr ⊕ Fin C.nr → ℝ := fun i => match i with
    | .inl i => b.e i
    | .inr (.inl i) => d.e i
    | .inr (.inr i) => -d.e i
  have hA : ∀ (i : Fin A.nr) (y : Fin n → ℝ), (M *ᵥ y) (.inl i) = Spec.rowVal A i (ext0 y) := fun i y => by
    unfold Spec.rowVal
    rw [s1, sum_range_fin]
    simp only [ext0_fin]
    rfl
  have hC1 : ∀ (i : Fin C.nr) (y : Fin n → ℝ), (M *ᵥ y) (.inr (.inl i)) = Spec.rowVal C i (ext0 y) := fun i y => by
    unfold Spec.rowVal
    rw [s3, sum_range_fin]
    simp only [ext0_fin]
    rfl
  have hC2 : ∀ (i : Fin C.nr) (y : Fin n → ℝ), (M *ᵥ y) (.inr (.inr i)) = -Spec.rowVal C i (ext0 y) := fun i y => by
    unfold Spec.rowVal
    rw [s3, sum_range_fin, ← sum_neg_distrib]
    simp only [ext0_fin, ← neg_mul]
    rfl
  have hmem : ∀ y : Fin n → ℝ, y ∈ polySet M c ↔ Spec.InPoly A b C d (ext0 y) := by
    intro y
    constructor
    · intro h
      refine ⟨fun i hi => ?_, fun i hi => ?_⟩
      · have := h (.inl ⟨i, hi⟩)
        rw [hA] at this; exact this
      · have h1 := h (.inr (.inl ⟨i, hi⟩))
        have h2 := h (.inr (.inr ⟨i, hi⟩))
        rw [hC1] at h1
        rw [hC2] at h2
        exact le_antisymm h1 (neg_le_neg_iff.1 h2)
    · rintro ⟨h1, h2⟩ (i | i | i)
      · rw [hA]; exact h1 i i.2
      · rw [hC1]; exact (h2 i i.2).le
      · rw [hC2]; exact neg_le_neg (h2 i i.2).ge
  have hcongr : ∀ y z : ℕ → ℝ, (∀ j < n, y j = z j) → Spec.InPoly A b C d y → Spec.InPoly A b C d z := fun y z h hy => by
    refine ⟨fun i hi => ?_, fun i hi => ?_⟩
    · have := hy.1 i hi
      rwa [s1, sum_congr rfl fun j hj => by rw [h j (mem_range.1 hj)], ← s1] at this
    · have := hy.2 i hi
      rwa [s3, sum_congr rfl fun j hj => by rw [h j (mem_range.1 hj)], ← s3] at this
  have hext : ∀ y : ℕ → ℝ, ∀ j < n, ext0 (fun j : Fin n => y j) j = y j := fun y j hj => ext0_lt _ hj
  obtain ⟨R, hR⟩ := hbd
  obtain ⟨v, hv, hle⟩ := exists_ext_max (A := M) (b := c) (R := R) (fun y hy k => by
      have := hR _ ((hmem y).1 hy) k k.2
      rwa [ext0_fin] at this) ((hmem fun j : Fin n => x j).2 (hcongr _ _ (fun j hj => (hext x j hj).symm) hx)) (fun j : Fin n => g j)
  refine ⟨ext0 v, ⟨(hmem v).1 hv.1, fun w h1 h2 j hj => ?_⟩, ?_⟩
  · have := hv.2 (fun j : Fin n => w j)
      ((hmem _).2 (hcongr _ _ (fun j hj => by rw [ext0_lt _ hj, ext0_lt _ hj]; rfl) h1))
      ((hmem _).2 (hcongr _ _ (fun j hj => by rw [ext0_lt _ hj, ext0_lt _ hj]; rfl) h2))
    exact congrFun this ⟨j, hj⟩
  · rw [sum_range_fin, sum_range_fin]
    simp only [ext0_fin]
    exact hle

/-- the projection of a bounded polyhedron is the hull of the projections of its vertices -/
theorem proj_hull {n : ℕ} {A : Mat ℝ} {b : Vec ℝ} {C : Mat ℝ} {d : Vec ℝ} (hs : Spec.PolyShape n A b C d) (hbd : Spec.IsBounded n A b C d) {i j : ℕ}
    (hi : i < n) (hj : j < n) {P : Mat ℝ} (h2 : P.nc = 2) (hP : ∀ k < P.nr, ∃ x, Spec.InPoly A b C d x ∧ P.e k 0 = x i ∧ P.e k 1 = x j)
    (hV : ∀ v, Spec.IsVertex n (Spec.InPoly A b C d) v → ∃ k < P.nr, P.e k 0 = v i ∧ P.e k 1 = v j) (y : ℝ × ℝ) :
    Spec.InHull P (fun l => if l = 0 then y.1 else y.2) ↔ ∃ x, Spec.InPoly A b C d x ∧ x i = y.1 ∧ x j = y.2 := by
  constructor
  · rintro ⟨w, w1, w2, w3⟩
    rw [h2] at w3
    have e0 := w3 0 (by norm_num)
    have e1 := w3 1 (by norm_num)
    simp only [if_true, one_ne_zero, if_false] at e0 e1
    choose! X hX using hP
    have hrow : ∀ (M : Mat ℝ) l, Spec.rowVal M l (fun m => ∑ k ∈ range P.nr, w k * X k m) = ∑ k ∈ range P.nr, w k * Spec.rowVal M l (X k) := by
      intro M l
      unfold Spec.rowVal
      simp only [mul_sum]
      rw [sum_comm]
      exact sum_congr rfl fun k _ => sum_congr rfl fun m _ => by ring
    refine ⟨fun m => ∑ k ∈ range P.nr, w k * X k m, ⟨fun l hl => ?_, fun l hl => ?_⟩, ?_, ?_⟩
    · refine (hrow A l).le.trans ?_
      calc ∑ k ∈ range P.nr, w k * Spec.rowVal A l (X k) ≤ ∑ k ∈ range P.nr, w k * b.e l :=
            sum_le_sum fun k hk => mul_le_mul_of_nonneg_left ((hX k (mem_range.1 hk)).1.1 l hl) (w1 k (mem_range.1 hk))
        _ = b.e l := by rw [← sum_mul, w2, one_mul]
    · refine (hrow C l).trans ?_
      rw [sum_congr rfl fun k hk => by rw [show Spec.rowVal C l (X k) = d.e l from (hX k (mem_range.1 hk)).1.2 l hl], ← sum_mul, w2, one_mul]
    · rw [e0]
      exact sum_congr rfl fun k hk => by rw [(hX k (mem_range.1 hk)).2.1]
    · rw [e1]
      exact sum_congr rfl fun k hk => by rw [(hX k (mem_range.1 hk)).2.2]
  · rintro ⟨x, hx, hxi, hxj⟩
    by_contra hno
    rw [inHull_iff] at hno
    obtain ⟨g, c, hg1, hg2⟩ := hull_separate _ hno
    have hsum : ∀ f : ℕ → ℝ, ∑ l : Fin P.nc, f l = f 0 + f 1 := fun f => by
      rw [← sum_range_fin, h2, sum_range_succ, sum_range_one]
    obtain ⟨v, hv, hle⟩ := exists_vertex_max hs hbd hx fun m => (if m = i then ext0 g 0 else 0) + if m = j then ext0 g 1 else 0
    have hev : ∀ z : ℕ → ℝ, ∑ m ∈ range n, ((if m = i then ext0 g 0 else 0) + if m = j then ext0 g 1 else 0) * z m = ext0 g 0 * z i + ext0 g 1 * z j := by
      intro z
      simp only [add_mul, ite_mul, zero_mul, sum_add_distrib]
      rw [sum_ite_eq' (range n) i, sum_ite_eq' (range n) j, if_pos (mem_range.2 hi), if_pos (mem_range.2 hj)]
    rw [hev, hev] at hle
    obtain ⟨k, hk, k0, k1⟩ := hV v hv
    have h1 := hg1 ⟨k, hk⟩
    have e1 : (P.asM P.nr P.nc *ᵥ g) ⟨k, hk⟩ = P.e k 0 * ext0 g 0 + P.e k 1 * ext0 g 1 := by
      rw [← hsum fun l => P.e k l * ext0 g l]
      simp only [ext0_fin]
      rfl
    have e2 : (g ⬝ᵥ fun l : Fin P.nc => if (l : ℕ) = 0 then y.1 else y.2) = ext0 g 0 * y.1 + ext0 g 1 * y.2 := by
      have := hsum fun l => ext0 g l * if l = 0 then y.1 else y.2
      simp only [ext0_fin, if_true, one_ne_zero, if_false] at this
      exact this
    rw [e1, k0, k1] at h1
    rw [e2, ← hxi, ← hxj] at hg2
    linarith

end Verif.Plot
