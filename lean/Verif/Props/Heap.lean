import Verif.Model.Heap
import Verif.Props.PolyhedronSets

/- Sharing of arrays between polyhedra. -/
namespace Verif
open Finset
namespace Heap

theorem loop (tol : ℝ) (A b : ℕ) (h : Heap) (m : ℕ) :
    let h' := (List.range m).foldl (normalizeRow tol A b) h
    let Ab := (List.range m).foldl (Poly.normalizeRow tol) (h.mat A, h.vec b)
    h'.mat A = Ab.1 ∧ h'.vec b = Ab.2 ∧ (∀ k, k ≠ A → h'.mat k = h.mat k) ∧ ∀ k, k ≠ b → h'.vec k = h.vec k := by
  induction m with
  | zero => exact ⟨rfl, rfl, fun _ _ => rfl, fun _ _ => rfl⟩
  | succ m ih =>
    obtain ⟨h1, h2, h3, h4⟩ := ih
    simp only [List.range_succ, List.foldl_append, List.foldl_cons, List.foldl_nil]
    generalize (List.range m).foldl (normalizeRow tol A b) h = h' at *
    generalize (List.range m).foldl (Poly.normalizeRow tol) (h.mat A, h.vec b) = Ab at *
    refine ⟨?_, ?_, fun k hk => ?_, fun k hk => ?_⟩
    · show (if A = A then (Poly.normalizeRow tol (h'.mat A, h'.vec b) m).1 else h'.mat A) = _
      rw [if_pos rfl, h1, h2]
    · show (if b = b then (Poly.normalizeRow tol (h'.mat A, h'.vec b) m).2 else h'.vec b) = _
      rw [if_pos rfl, h1, h2]
    · show (if k = A then _ else h'.mat k) = _
      rw [if_neg hk, h3 k hk]
    · show (if k = b then _ else h'.vec k) = _
      rw [if_neg hk, h4 k hk]

/-- `normalize` writes only the arrays of the object -/
theorem normalize_other (h : Heap) (o : Obj) (tol : ℝ) :
    (∀ k, k ≠ o.A → k ≠ o.C → (h.normalize o tol).mat k = h.mat k) ∧ ∀ k, k ≠ o.b → k ≠ o.d → (h.normalize o tol).vec k = h.vec k := by
  unfold normalize
  obtain ⟨-, -, h3, h4⟩ := loop tol o.A o.b h (h.mat o.A).nr
  set h1 := (List.range (h.mat o.A).nr).foldl (normalizeRow tol o.A o.b) h
  obtain ⟨-, -, k3, k4⟩ := loop tol o.C o.d h1 (h1.mat o.C).nr
  exact ⟨fun k ha hc => (k3 k hc).trans (h3 k ha), fun k hb hd => (k4 k hd).trans (h4 k hb)⟩

/-- for an object whose four arrays are different arrays -/
theorem normalize_self (h : Heap) (o : Obj) (tol : ℝ) (hM : o.A ≠ o.C) (hV : o.b ≠ o.d) :
    (h.normalize o tol).poly o = (h.poly o).normalize tol := by
  obtain ⟨a1, a2, a3, a4⟩ := loop tol o.A o.b h (h.mat o.A).nr
  unfold normalize
  set h1 := (List.range (h.mat o.A).nr).foldl (normalizeRow tol o.A o.b) h
  obtain ⟨c1, c2, c3, c4⟩ := loop tol o.C o.d h1 (h1.mat o.C).nr
  have eC : h1.mat o.C = h.mat o.C := a3 _ hM.symm
  have ed : h1.vec o.d = h.vec o.d := a4 _ hV.symm
  set h2 := (List.range (h1.mat o.C).nr).foldl (normalizeRow tol o.C o.d) h1
  rw [eC, ed] at c1 c2
  show Poly.mk (h2.mat o.A) (h2.vec o.b) (h2.mat o.C) (h2.vec o.d) none none none none none = _
  rw [c3 o.A hM, c4 o.b hV, c1, c2, a1, a2]
  rfl

end Heap

namespace Props
open Heap

/-- the objects have no array in common -/
def Disjoint (o o' : Obj) : Prop := (o'.A ≠ o.A ∧ o'.A ≠ o.C) ∧ (o'.C ≠ o.A ∧ o'.C ≠ o.C) ∧ (o'.b ≠ o.b ∧ o'.b ≠ o.d) ∧ (o'.d ≠ o.b ∧ o'.d ≠ o.d)

/-- C23 (partial): `normalize` leaves every polyhedron without common array as it was, and every array that is not one of the four.  The polyhedron
itself, and hence its shallow copies, represent the same set as before if its four arrays are different ones.  The constructor stores the arrays of
the caller; two polyhedra built with their own arrays have none in common.

Missing: the same for polyhedra that share arrays, which is false (`C23_false`, `C23_self_false`). -/
theorem C23_partial (h : Heap) (o : Obj) (tol : ℝ) (ht : 0 ≤ tol) :
    (∀ o', Disjoint o o' → (h.normalize o tol).poly o' = h.poly o') ∧
    (∀ k, k ≠ o.A → k ≠ o.C → (h.normalize o tol).mat k = h.mat k) ∧ (∀ k, k ≠ o.b → k ≠ o.d → (h.normalize o tol).vec k = h.vec k) ∧
    (o.A ≠ o.C → o.b ≠ o.d → ∀ n, (h.poly o).Inv n →
      ∀ x, ((h.normalize o tol).poly (copy o)).Mem x ↔ (h.poly (copy o)).Mem x) ∧
    (∀ A b h', A < h.nextM → b < h.nextV → h.init A b = .ok (o, h') →
      o.A = A ∧ o.b = b ∧ o.A ≠ o.C ∧ o.b ≠ o.d ∧ (∀ k < h.nextM, h'.mat k = h.mat k) ∧ (∀ k < h.nextV, h'.vec k = h.vec k) ∧
      ∀ A' b' o' h'', A' < h.nextM → b' < h.nextV → A' ≠ A → b' ≠ b → h'.init A' b' = .ok (o', h'') → Disjoint o o') := by
  obtain ⟨h1, h2⟩ := normalize_other h o tol
  refine ⟨fun o' ⟨d1, d2, d3, d4⟩ => ?_, h1, h2, fun hM hV n hn x => ?_, fun A b h' hA hb hi => ?_⟩
  · unfold poly
    rw [h1 _ d1.1 d1.2, h1 _ d2.1 d2.2, h2 _ d3.1 d3.2, h2 _ d4.1 d4.2]
  · show ((h.normalize o tol).poly o).Mem x ↔ (h.poly o).Mem x
    rw [normalize_self h o tol hM hV]
    exact (C07 n (h.poly o) hn tol ht).2.2.2.1 x
  · have key : ∀ (g g' : Heap) A b o, g.init A b = .ok (o, g') → o = ⟨A, b, g.nextM, g.nextV⟩ ∧
        g' = { mat := fun k => if k = g.nextM then Mat.zeros 0 (g.mat A).nc else g.mat k
               vec := fun k => if k = g.nextV then Vec.zeros 0 else g.vec k
               nextM := g.nextM + 1
               nextV := g.nextV + 1 } := by
      intro g g' A b o h
      unfold Heap.init at h
      split at h
      · cases h
      · obtain ⟨rfl, rfl⟩ := Prod.mk.inj (Except.ok.inj h)
        exact ⟨rfl, rfl⟩
    obtain ⟨rfl, rfl⟩ := key h h' A b o hi
    refine ⟨rfl, rfl, by show A ≠ h.nextM; omega, by show b ≠ h.nextV; omega, fun k hk => if_neg (by omega), fun k hk => if_neg (by omega), ?_⟩
    intro A' b' o' h'' hA' hb' hne hne' hi'
    obtain ⟨rfl, -⟩ := key _ h'' A' b' o' hi'
    refine ⟨⟨hne, ?_⟩, ⟨?_, ?_⟩, ⟨hne', ?_⟩, ⟨?_, ?_⟩⟩ <;> show _ ≠ _ <;> dsimp only <;> omega

/-- two objects with their own arrays, one of them normalized -/
example (h : Heap) : Disjoint ⟨0, 0, 1, 1⟩ ⟨2, 2, 3, 3⟩ ∧ (h.normalize ⟨0, 0, 1, 1⟩ 1e-8).poly ⟨2, 2, 3, 3⟩ = h.poly ⟨2, 2, 3, 3⟩ := by
  have hd : Disjoint ⟨0, 0, 1, 1⟩ ⟨2, 2, 3, 3⟩ := by unfold Disjoint; decide
  exact ⟨hd, (C23_partial h ⟨0, 0, 1, 1⟩ 1e-8 (by norm_num)).1 _ hd⟩

theorem init_run {h : Heap} {A b : ℕ} {p : Poly} (hp : Poly.init (h.mat A) (.d1 (h.vec b)) none none = .ok p) :
    h.init A b = .ok (⟨A, b, h.nextM, h.nextV⟩, ⟨fun k => if k = h.nextM then Mat.zeros 0 (h.mat A).nc else h.mat k,
      fun k => if k = h.nextV then Vec.zeros 0 else h.vec k, h.nextM + 1, h.nextV + 1⟩) := by
  unfold Heap.init
  simp only [Option.map_none, hp]

theorem init_run' {h : Heap} {A b C d : ℕ} {p : Poly} (hp : Poly.init (h.mat A) (.d1 (h.vec b)) (some (h.mat C)) (some (.d1 (h.vec d))) = .ok p) :
    h.init A b (some (C, d)) = .ok (⟨A, b, C, d⟩, h) := by
  unfold Heap.init
  simp only [Option.map_some, hp]

/-- the matrix `[a]` -/
def one (a : ℝ) : Mat ℝ := ⟨1, 1, fun _ _ => a⟩
/-- the vector `[a]` -/
def one' (a : ℝ) : Vec ℝ := ⟨1, fun _ => a⟩

/-- arrays `A = [[2]]`, `b = [2]`, `c = [6]` -/
def caller : Heap := ⟨fun _ => one 2, fun k => if k = 0 then one' 2 else one' 6, 1, 2⟩

theorem vnorm_one (a : ℝ) (ha : 0 ≤ a) (e : ℕ → ℕ → ℝ) (h : e 0 0 = a) : vnorm ((⟨1, 1, e⟩ : Mat ℝ).row 0) = a := by
  have : vnorm ((⟨1, 1, e⟩ : Mat ℝ).row 0) = Real.sqrt (∑ j ∈ range 1, e 0 j ^ 2) := rfl
  rw [this, Finset.sum_range_one, h, Real.sqrt_sq ha]

/-- one pass of the loop on arrays with one entry -/
theorem norm_loop_one (A b : ℕ) (h : Heap) (a c : ℝ) (ha : 1e-7 < a) (hA : (h.mat A).nr = 1 ∧ (h.mat A).nc = 1 ∧ (h.mat A).e 0 0 = a) (hb : (h.vec b).e 0 = c) :
    let h' := (List.range (h.mat A).nr).foldl (normalizeRow 1e-7 A b) h
    (h'.mat A).nr = 1 ∧ (h'.mat A).nc = 1 ∧ (h'.mat A).e 0 0 = 1 ∧ (h'.vec b).e 0 = c / a := by
  intro h'
  obtain ⟨l1, l2, -, -⟩ := loop 1e-7 A b h (h.mat A).nr
  obtain ⟨n1, n2, n3, n4, n5⟩ := Poly.normalizeRow_foldl 1e-7 (h.mat A) (h.vec b) (h.mat A).nr
  have hpos : 0 < a := lt_trans (by norm_num) ha
  have hv : vnorm ((h.mat A).row 0) = a := by
    have : h.mat A = ⟨1, 1, (h.mat A).e⟩ := by
      rcases hm : h.mat A with ⟨r, c, e⟩
      rw [hm] at hA
      obtain ⟨rfl, rfl, -⟩ := hA
      rfl
    rw [this]
    exact vnorm_one a hpos.le _ hA.2.2
  refine ⟨by rw [l1, n1, hA.1], by rw [l1, n2, hA.2.1], ?_, ?_⟩
  · rw [l1, n4, hv, if_pos ⟨by rw [hA.1]; exact Nat.zero_lt_one, ha⟩, hA.2.2, div_self hpos.ne']
  · rw [l2, n5, hv, if_pos ⟨by rw [hA.1]; exact Nat.zero_lt_one, ha⟩, hb]

/-- C23 is false: `p1 = Polyhedron(A, b)` and `p2 = Polyhedron(A, c)` with `A = [[2]]`, `b = [2]`, `c = [6]`.  Before `p1.normalize()` the set `p2` is
`x <= 3`, after it `x <= 6`; the array `A` of the caller has changed too. -/
theorem C23_false : ∃ o1 o2 h1 h2, caller.init 0 0 = .ok (o1, h1) ∧ h1.init 0 1 = .ok (o2, h2) ∧
    (∀ x, (h2.poly o2).Mem x ↔ x 0 ≤ 3) ∧ (∀ x, ((h2.normalize o1).poly o2).Mem x ↔ x 0 ≤ 6) ∧ (h2.normalize o1).mat 0 ≠ caller.mat 0 := by
  have i1 : caller.init 0 0 = .ok (⟨0, 0, 1, 2⟩, ⟨fun k => if k = 1 then Mat.zeros 0 1 else one 2,
      fun k => if k = 2 then Vec.zeros 0 else if k = 0 then one' 2 else one' 6, 2, 3⟩) := by
    have : Poly.init (one 2) (.d1 (one' 2)) none none = .ok _ := (Poly.init_eq_ok.2 ⟨_, rfl, rfl, Or.inl ⟨rfl, rfl, rfl⟩⟩)
    exact init_run this
  set h1 : Heap := ⟨fun k => if k = 1 then Mat.zeros 0 1 else one 2, fun k => if k = 2 then Vec.zeros 0 else if k = 0 then one' 2 else one' 6, 2, 3⟩ with hh1
  have i2 : h1.init 0 1 = .ok (⟨0, 1, 2, 3⟩, ⟨fun k => if k = 2 then Mat.zeros 0 1 else h1.mat k,
      fun k => if k = 3 then Vec.zeros 0 else h1.vec k, 3, 4⟩) := by
    have : Poly.init (one 2) (.d1 (one' 6)) none none = .ok _ := (Poly.init_eq_ok.2 ⟨_, rfl, rfl, Or.inl ⟨rfl, rfl, rfl⟩⟩)
    exact init_run this
  set h2 : Heap := ⟨fun k => if k = 2 then Mat.zeros 0 1 else h1.mat k, fun k => if k = 3 then Vec.zeros 0 else h1.vec k, 3, 4⟩ with hh2
  set o1 : Obj := ⟨0, 0, 1, 2⟩ with ho1
  obtain ⟨q1, q2⟩ := normalize_other h2 o1 1e-7
  -- the arrays after `p1.normalize()`
  have m0 : ((h2.normalize o1).mat 0).nr = 1 ∧ ((h2.normalize o1).mat 0).nc = 1 ∧ ((h2.normalize o1).mat 0).e 0 0 = 1 := by
    obtain ⟨l1, l2, l3, -⟩ := norm_loop_one 0 0 h2 2 2 (by norm_num) ⟨rfl, rfl, rfl⟩ rfl
    have e : (h2.normalize o1).mat 0 = ((List.range (h2.mat 0).nr).foldl (normalizeRow 1e-7 0 0) h2).mat 0 := by
      unfold Heap.normalize
      exact (loop 1e-7 1 2 _ _).2.2.1 0 (by decide)
    rw [e]
    exact ⟨l1, l2, l3⟩
  have m2 : (h2.normalize o1).mat 2 = Mat.zeros 0 1 := q1 2 (by decide) (by decide)
  have v1 : (h2.normalize o1).vec 1 = one' 6 := q2 1 (by decide) (by decide)
  have v3 : (h2.normalize o1).vec 3 = Vec.zeros 0 := q2 3 (by decide) (by decide)
  refine ⟨o1, ⟨0, 1, 2, 3⟩, h1, h2, i1, i2, fun x => ?_, fun x => ?_, fun h => ?_⟩
  · have : (h2.poly ⟨0, 1, 2, 3⟩).Mem x ↔ ∀ i < 1, ∑ j ∈ range 1, (2 : ℝ) * x j ≤ 6 := by
      show ((∀ i < 1, ∑ j ∈ range 1, (2 : ℝ) * x j ≤ 6) ∧ ∀ i < 0, _) ↔ _
      exact ⟨fun h => h.1, fun h => ⟨h, fun i hi => absurd hi (Nat.not_lt_zero i)⟩⟩
    rw [this]
    constructor
    · intro h
      have := h 0 Nat.zero_lt_one
      rw [Finset.sum_range_one] at this
      linarith
    · intro h i _
      rw [Finset.sum_range_one]
      linarith
  · show Spec.InPoly ((h2.normalize o1).mat 0) ((h2.normalize o1).vec 1) ((h2.normalize o1).mat 2) ((h2.normalize o1).vec 3) x ↔ _
    unfold Spec.InPoly
    rw [m2, v1, v3, m0.1, m0.2.1]
    constructor
    · intro h
      have := h.1 0 Nat.zero_lt_one
      rw [Finset.sum_range_one, m0.2.2] at this
      have h6 : (1 : ℝ) * x 0 ≤ 6 := this
      linarith
    · intro h
      refine ⟨fun i hi => ?_, fun i hi => absurd hi (Nat.not_lt_zero i)⟩
      obtain rfl : i = 0 := by omega
      rw [Finset.sum_range_one, m0.2.2]
      show (1 : ℝ) * x 0 ≤ 6
      linarith
  · have := m0.2.2
    rw [h] at this
    have h2 : (2 : ℝ) = 1 := this
    norm_num at h2

/-- The set of the polyhedron itself changes if it is built with the same array twice: `Polyhedron(A, b, C, b)` with `A = [[2]]`, `C = [[4]]`,
`b = [2]` is the point `1/2`; after `normalize` it is the point `1/4`. -/
theorem C23_self_false : ∃ (h : Heap) (o : Obj), h.init 0 0 (some (1, 0)) = .ok (o, h) ∧ (∀ x, (h.poly o).Mem x ↔ x 0 = 1 / 2) ∧
    ∀ x, ((h.normalize o).poly o).Mem x ↔ x 0 = 1 / 4 := by
  set h : Heap := ⟨fun k => if k = 0 then one 2 else one 4, fun _ => one' 2, 2, 1⟩ with hh
  have i1 : h.init 0 0 (some (1, 0)) = .ok (⟨0, 0, 1, 0⟩, h) := by
    have : Poly.init (one 2) (.d1 (one' 2)) (some (one 4)) (some (.d1 (one' 2))) = .ok _ :=
      Poly.init_eq_ok.2 ⟨_, rfl, rfl, Or.inr ⟨one 4, one' 2, rfl, rfl, rfl, rfl⟩⟩
    exact init_run' this
  have mem1 : ∀ (A C : Mat ℝ) (b d : Vec ℝ) (x : ℕ → ℝ), A.nr = 1 → A.nc = 1 → C.nr = 1 → C.nc = 1 →
      (Spec.InPoly A b C d x ↔ A.e 0 0 * x 0 ≤ b.e 0 ∧ C.e 0 0 * x 0 = d.e 0) := fun A C b d x h1 h2 h3 h4 => by
    unfold Spec.InPoly
    rw [h1, h2, h3, h4]
    simp only [Finset.sum_range_one]
    exact ⟨fun h => ⟨h.1 0 Nat.zero_lt_one, h.2 0 Nat.zero_lt_one⟩, fun h =>
      ⟨fun i hi => by obtain rfl : i = 0 := by omega
                      exact h.1, fun i hi => by obtain rfl : i = 0 := by omega
                                                exact h.2⟩⟩
  obtain ⟨a1, a2, a3, a4⟩ := norm_loop_one 0 0 h 2 2 (by norm_num) ⟨rfl, rfl, rfl⟩ rfl
  set h' := (List.range (h.mat 0).nr).foldl (normalizeRow 1e-7 0 0) h with hh'
  have hC : h'.mat 1 = one 4 := (loop 1e-7 0 0 h (h.mat 0).nr).2.2.1 1 (by decide)
  obtain ⟨c1, c2, c3, c4⟩ := norm_loop_one 1 0 h' 4 (2 / 2) (by norm_num) ⟨by rw [hC]; rfl, by rw [hC]; rfl, by rw [hC]; rfl⟩ a4
  have hA : (h.normalize ⟨0, 0, 1, 0⟩).mat 0 = h'.mat 0 := (loop 1e-7 1 0 h' (h'.mat 1).nr).2.2.1 0 (by decide)
  refine ⟨h, _, i1, fun x => ?_, fun x => ?_⟩
  · rw [show (h.poly ⟨0, 0, 1, 0⟩).Mem x ↔ _ from mem1 (one 2) (one 4) (one' 2) (one' 2) x rfl rfl rfl rfl]
    show (2 * x 0 ≤ 2 ∧ 4 * x 0 = 2) ↔ _
    constructor
    · rintro ⟨-, h⟩; linarith
    · intro h; rw [h]; norm_num
  · show Spec.InPoly ((h.normalize ⟨0, 0, 1, 0⟩).mat 0) ((h.normalize ⟨0, 0, 1, 0⟩).vec 0) ((h.normalize ⟨0, 0, 1, 0⟩).mat 1)
      ((h.normalize ⟨0, 0, 1, 0⟩).vec 0) x ↔ _
    rw [mem1 ((h.normalize ⟨0, 0, 1, 0⟩).mat 0) ((h.normalize ⟨0, 0, 1, 0⟩).mat 1) _ _ x (by rw [hA]; exact a1) (by rw [hA]; exact a2) c1 c2, hA, a3]
    have c4' : ((h.normalize ⟨0, 0, 1, 0⟩).vec 0).e 0 = 2 / 2 / 4 := c4
    have c3' : ((h.normalize ⟨0, 0, 1, 0⟩).mat 1).e 0 0 = 1 := c3
    rw [c3', c4']
    constructor
    · rintro ⟨-, h⟩; linarith
    · intro h; rw [h]; norm_num

end Props
end Verif
