import Verif.Proofs.Voronoi

/- The Voronoi partition of the example. -/
namespace Verif.Props
open Finset
open Spec (sqDist Closest Distinct)
open Voronoi

/-- `n` cells, the `i`-th the points closest to the point `i` -/
def IsPartition (n : ℕ) (points : List (Vec ℝ)) (cells : List Poly) : Prop :=
  List.Forall₂ (fun i c => c.Inv n ∧ c.C.nr = 0 ∧ ∀ x, c.Mem x ↔ Closest n points i x) (List.range points.length) cells

theorem forall₂_imp {α β : Type} {R S : α → β → Prop} {l : List α} {r : List β} (h : List.Forall₂ R l r) (hl : ∀ a ∈ l, ∀ b, R a b → S a b) :
    List.Forall₂ S l r := by
  induction h with
  | nil => exact .nil
  | cons h1 _ ih => exact .cons (hl _ List.mem_cons_self _ h1) (ih fun a ha => hl a (List.mem_cons_of_mem _ ha))

/-- the list of the neighbours -/
theorem tips_run {points : List (Vec ℝ)} {rs : List (ℕ × ℕ)} {i : ℕ} (h : ∀ r ∈ rs, r.1 < points.length ∧ r.2 < points.length ∧ r.1 ≠ r.2) :
    ((rs.filter fun r => r.1 = i ∨ r.2 = i).mapM fun r => np.listGet points (if r.1 = i then r.2 else r.1)) =
      .ok ((rs.filter fun r => r.1 = i ∨ r.2 = i).map fun r => pt points (if r.1 = i then r.2 else r.1)) :=
  mapM_ok fun r hr => Dyn.listGet_ok _ (by
    have := h r (List.mem_filter.1 hr).1
    split_ifs
    · exact this.2.1
    · exact this.1)

theorem nd_partition {V : Vor} (hV : VorSpec V) {n : ℕ} {points : List (Vec ℝ)} (hn : ∀ p ∈ points, p.n = n) (hd : Distinct n points) {cells : List Poly}
    (h : voronoi_nd V points = .ok cells) : IsPartition n points cells := by
  refine forall₂_imp (Sympy.mapM_forall₂ h) fun i hi c hc => ?_
  have hi' := List.mem_range.1 hi
  rw [Dyn.listGet_ok ⟨0, fun _ => 0⟩ hi', Py.ok_bind] at hc
  obtain ⟨rs, hrs, hc⟩ := Py.bind_eq_ok hc
  have hr := hV.range n points rs hn hrs
  rw [tips_run hr, Py.ok_bind] at hc
  set tips := (rs.filter fun r => r.1 = i ∨ r.2 = i).map fun r => pt points (if r.1 = i then r.2 else r.1) with htips
  have htip : ∀ q ∈ tips, q ∈ points := fun q hq => by
    obtain ⟨r, hr', rfl⟩ := List.mem_map.1 hq
    have := hr r (List.mem_filter.1 hr').1
    refine pt_mem ?_
    split_ifs
    · exact this.2.1
    · exact this.1
  have hne : tips ≠ [] := fun h => by
    rw [h] at hc
    rw [cell_nil] at hc
    cases hc
  obtain ⟨c', hc', h1, h0, h2⟩ := cell_run (hn _ (pt_mem hi')) (fun q hq => hn q (htip q hq)) hne
  have hcc : cell (pt points i) tips = .ok c := hc
  rw [hc'] at hcc
  cases hcc
  refine ⟨h1, h0, fun x => ?_⟩
  rw [h2]
  constructor
  · intro hx
    refine neighbours hd hi' (fun j => (i, j) ∈ rs ∨ (j, i) ∈ rs) (fun j hj hne hs => hV.complete n points rs hn hd hrs i hi' j hj hne hs) x fun j hj hN => ?_
    refine hx _ ?_
    rcases hN with hN | hN
    · refine List.mem_map.2 ⟨(i, j), List.mem_filter.2 ⟨hN, by simp⟩, ?_⟩
      rw [if_pos rfl]
    · have hne := (hr _ hN).2.2
      refine List.mem_map.2 ⟨(j, i), List.mem_filter.2 ⟨hN, by simp⟩, ?_⟩
      rw [if_neg hne]
  · intro hx q hq
    exact hx q (htip q hq)

theorem sqDist_one (x y : ℕ → ℝ) : sqDist 1 x y = (x 0 - y 0) ^ 2 := by
  unfold sqDist
  rw [Finset.sum_range_one]

/-- the first coordinates are strictly increasing along the list -/
def Sorted1 (points : List (Vec ℝ)) : Prop := points.Pairwise fun p q => p.e 0 < q.e 0

theorem sorted1_lt {points : List (Vec ℝ)} (h : Sorted1 points) {i j : ℕ} (hij : i < j) (hj : j < points.length) :
    (pt points i).e 0 < (pt points j).e 0 := by
  unfold pt
  rw [List.getD_eq_getElem _ _ (hij.trans hj), List.getD_eq_getElem _ _ hj]
  exact List.pairwise_iff_getElem.1 h i j (hij.trans hj) hj hij

theorem insertionSort_sorted {points : List (Vec ℝ)} (h : Sorted1 points) : points.insertionSort (fun p q => p.e 0 ≤ q.e 0) = points :=
  List.Pairwise.insertionSort_eq (h.imp fun h => le_of_lt h)

/-- the neighbours on the line -/
theorem closest_1d {points : List (Vec ℝ)} (h : Sorted1 points) {i : ℕ} (hi : i < points.length) (x : ℕ → ℝ)
    (h1 : 0 < i → sqDist 1 x (pt points i).e ≤ sqDist 1 x (pt points (i - 1)).e)
    (h2 : i + 1 < points.length → sqDist 1 x (pt points i).e ≤ sqDist 1 x (pt points (i + 1)).e) : Closest 1 points i x := by
  rw [closest_iff]
  intro k hk
  simp only [sqDist_one] at *
  rcases lt_trichotomy k i with hki | rfl | hki
  · have a := h1 (by omega)
    have b := sorted1_lt h (show i - 1 < i by omega) hi
    have c : (pt points k).e 0 ≤ (pt points (i - 1)).e 0 := by
      rcases Nat.lt_or_ge k (i - 1) with hlt | hge
      · exact (sorted1_lt h hlt (by omega)).le
      · rw [show k = i - 1 by omega]
    have d : (pt points i).e 0 + (pt points (i - 1)).e 0 ≤ 2 * x 0 := by nlinarith
    have e : 0 ≤ ((pt points i).e 0 - (pt points k).e 0) * (2 * x 0 - (pt points i).e 0 - (pt points k).e 0) :=
      mul_nonneg (by linarith) (by linarith)
    nlinarith
  · exact le_refl _
  · have a := h2 (by omega)
    have b := sorted1_lt h (show i < i + 1 by omega) (by omega)
    have c : (pt points (i + 1)).e 0 ≤ (pt points k).e 0 := by
      rcases Nat.lt_or_ge (i + 1) k with hlt | hge
      · exact (sorted1_lt h hlt hk).le
      · rw [show k = i + 1 by omega]
    have d : 2 * x 0 ≤ (pt points i).e 0 + (pt points (i + 1)).e 0 := by nlinarith
    have e : 0 ≤ ((pt points k).e 0 - (pt points i).e 0) * ((pt points i).e 0 + (pt points k).e 0 - 2 * x 0) :=
      mul_nonneg (by linarith) (by linarith)
    nlinarith

/-- on a sorted list of at least two points of the line -/
theorem line_partition {points : List (Vec ℝ)} (hn : ∀ p ∈ points, p.n = 1) (hs : Sorted1 points) (h2 : 2 ≤ points.length) :
    ∃ cells, voronoi_1d points = .ok cells ∧ IsPartition 1 points cells := by
  have key : ∀ i ∈ List.range points.length, ∃ c, (do
      let point ← np.listGet points i
      let tips ← ((if 0 < i then [i - 1] else []) ++ if i + 1 < points.length then [i + 1] else []).mapM (np.listGet points)
      cell point tips) = .ok c ∧ c.Inv 1 ∧ c.C.nr = 0 ∧ ∀ x, c.Mem x ↔ Closest 1 points i x := by
    intro i hi
    have hi' := List.mem_range.1 hi
    set idx := (if 0 < i then [i - 1] else []) ++ if i + 1 < points.length then [i + 1] else [] with hidx
    have hmem : ∀ k, k ∈ idx ↔ (0 < i ∧ k = i - 1) ∨ (i + 1 < points.length ∧ k = i + 1) := fun k => by
      rw [hidx, List.mem_append]
      split_ifs <;> simp_all
    have hlt : ∀ k ∈ idx, k < points.length := fun k hk => by
      rcases (hmem k).1 hk with ⟨h, rfl⟩ | ⟨h, rfl⟩ <;> omega
    have hm : idx.mapM (np.listGet points) = .ok (idx.map (pt points)) := mapM_ok fun k hk => Dyn.listGet_ok _ (hlt k hk)
    have hne : idx.map (pt points) ≠ [] := by
      intro h
      have h0 : idx = [] := List.map_eq_nil_iff.1 h
      by_cases hc : 0 < i
      · have := (hmem (i - 1)).2 (Or.inl ⟨hc, rfl⟩)
        rw [h0] at this
        cases this
      · have := (hmem (i + 1)).2 (Or.inr ⟨by omega, rfl⟩)
        rw [h0] at this
        cases this
    obtain ⟨c, hc, c1, c0, c2⟩ := cell_run (n := 1) (hn _ (pt_mem hi')) (fun q hq => by
      obtain ⟨k, hk, rfl⟩ := List.mem_map.1 hq
      exact hn _ (pt_mem (hlt k hk))) hne
    refine ⟨c, ?_, c1, c0, fun x => ?_⟩
    · rw [Dyn.listGet_ok ⟨0, fun _ => 0⟩ hi', Py.ok_bind, hm, Py.ok_bind]
      exact hc
    · rw [c2]
      constructor
      · intro hx
        exact closest_1d hs hi' x (fun h => hx _ (List.mem_map.2 ⟨_, (hmem _).2 (Or.inl ⟨h, rfl⟩), rfl⟩))
          (fun h => hx _ (List.mem_map.2 ⟨_, (hmem _).2 (Or.inr ⟨h, rfl⟩), rfl⟩))
      · intro hx q hq
        obtain ⟨k, hk, rfl⟩ := List.mem_map.1 hq
        exact hx _ (pt_mem (hlt k hk))
  have hrun : ∃ cells, voronoi_1d points = .ok cells := by
    unfold voronoi_1d
    rw [insertionSort_sorted hs]
    exact Sympy.mapM_exists fun i hi => (key i hi).imp fun c hc => hc.1
  obtain ⟨cells, h⟩ := hrun
  refine ⟨cells, h, ?_⟩
  unfold voronoi_1d at h
  rw [insertionSort_sorted hs] at h
  refine forall₂_imp (Sympy.mapM_forall₂ h) fun i hi c hc => ?_
  obtain ⟨c', hc', h1, h0, h2⟩ := key i hi
  rw [hc'] at hc
  cases hc
  exact ⟨h1, h0, h2⟩

/-- it answers for points not on a hyperplane -/
theorem nd_answers {V : Vor} (hV : VorSpec V) {n : ℕ} (h2n : 2 ≤ n) {points : List (Vec ℝ)} (hn : ∀ p ∈ points, p.n = n) (hd : Distinct n points)
    (hs : Spec.Spread n points) : ∃ cells, voronoi_nd V points = .ok cells := by
  obtain ⟨rs, hrs⟩ := hV.answers n points h2n hn hd hs
  have hr := hV.range n points rs hn hrs
  refine Sympy.mapM_exists fun i hi => ?_
  have hi' := List.mem_range.1 hi
  rw [Dyn.listGet_ok ⟨0, fun _ => 0⟩ hi', Py.ok_bind, hrs, Py.ok_bind, tips_run hr, Py.ok_bind]
  -- there is a neighbour
  have hex : ∃ j, (i, j) ∈ rs ∨ (j, i) ∈ rs := by
    by_contra hcon
    have hall : ∀ x, Closest n points i x := fun x => neighbours hd hi' (fun j => (i, j) ∈ rs ∨ (j, i) ∈ rs)
      (fun j hj hne hs => hV.complete n points rs hn hd hrs i hi' j hj hne hs) x fun j _ hN => absurd ⟨j, hN⟩ hcon
    -- all points are the point `i`
    have hsame : ∀ p ∈ points, p = pt points i := by
      intro p hp
      obtain ⟨k, hk, rfl⟩ := mem_pt hp
      by_contra hne
      obtain ⟨c, hc, hne'⟩ := hd i hi' k hk (fun h => hne (by rw [h]))
      have := closest_iff.1 (hall (pt points k).e) k hk
      have h0 : sqDist n (pt points k).e (pt points k).e = 0 := by simp [sqDist]
      rw [h0] at this
      have hpos : 0 < sqDist n (pt points k).e (pt points i).e := by
        refine Finset.sum_pos' (fun _ _ => sq_nonneg _) ⟨c, mem_range.2 hc, ?_⟩
        have : (pt points k).e c - (pt points i).e c ≠ 0 := sub_ne_zero.2 (Ne.symm hne')
        positivity
      linarith
    have := hs (fun j => if j = 0 then 1 else 0) ((pt points i).e 0) (fun v hv => by
      rw [hsame v hv]
      rw [Finset.sum_eq_single 0 (fun j _ hj => by rw [if_neg hj, zero_mul]) (fun h => absurd (mem_range.2 (by omega)) h)]
      simp) 0 (by omega)
    norm_num at this
  obtain ⟨j, hj⟩ := hex
  obtain ⟨c, hc, -⟩ := cell_run (n := n) (p := pt points i) (tips := (rs.filter fun r => r.1 = i ∨ r.2 = i).map fun r => pt points (if r.1 = i then r.2 else r.1))
    (hn _ (pt_mem hi')) (fun q hq => by
      obtain ⟨r, hr', rfl⟩ := List.mem_map.1 hq
      have := hr r (List.mem_filter.1 hr').1
      refine hn _ (pt_mem ?_)
      split_ifs
      · exact this.2.1
      · exact this.1) (fun h => by
      rw [List.map_eq_nil_iff] at h
      rcases hj with hj | hj
      · have : (i, j) ∈ rs.filter fun r => decide (r.1 = i ∨ r.2 = i) := List.mem_filter.2 ⟨hj, by simp⟩
        rw [h] at this
        cases this
      · have : (j, i) ∈ rs.filter fun r => decide (r.1 = i ∨ r.2 = i) := List.mem_filter.2 ⟨hj, by simp⟩
        rw [h] at this
        cases this)
  exact ⟨c, hc⟩

/-- points of the line in any order: the cells belong to the sorted points -/
theorem line_sorted {points : List (Vec ℝ)} (hd : points.Pairwise fun p q => p.e 0 ≠ q.e 0) :
    Sorted1 (points.insertionSort fun p q => p.e 0 ≤ q.e 0) ∧
      voronoi_1d (points.insertionSort fun p q => p.e 0 ≤ q.e 0) = voronoi_1d points := by
  have hp : (points.insertionSort fun p q => p.e 0 ≤ q.e 0).Perm points := List.perm_insertionSort _ _
  have h1 : (points.insertionSort fun p q => p.e 0 ≤ q.e 0).Pairwise fun p q => p.e 0 ≠ q.e 0 :=
    hp.symm.pairwise hd (fun h => Ne.symm h)
  have : Std.Total (fun p q : Vec ℝ => p.e 0 ≤ q.e 0) := ⟨fun p q => le_total _ _⟩
  have : IsTrans (Vec ℝ) (fun p q : Vec ℝ => p.e 0 ≤ q.e 0) := ⟨fun p q r h1 h2 => le_trans h1 h2⟩
  have h2 : (points.insertionSort fun p q => p.e 0 ≤ q.e 0).Pairwise fun p q => p.e 0 ≤ q.e 0 := List.pairwise_insertionSort _ _
  have h3 : Sorted1 (points.insertionSort fun p q => p.e 0 ≤ q.e 0) := by
    refine List.Pairwise.imp₂ (fun p q h1 h2 => lt_of_le_of_ne h1 h2) h2 h1
  refine ⟨h3, ?_⟩
  unfold voronoi_1d
  rw [insertionSort_sorted h3]

/-! ### coordinates in which the points differ -/

/-- the points do not all have the same coordinate `c` -/
def Varies (points : List (Vec ℝ)) (c : ℕ) : Prop := ∃ p ∈ points, ∃ q ∈ points, p.e c ≠ q.e c

/-- coordinates that differ do so by more than the tolerances of `isclose` -/
def Separated (n : ℕ) (points : List (Vec ℝ)) : Prop :=
  ∀ c < n, Varies points c → ∃ p ∈ points, ∃ q ∈ points, (∀ r ∈ points, r.e c ≤ q.e c) ∧ 1e-8 + 1e-5 * |q.e c| < q.e c - p.e c

theorem minL_le (a : ℝ) (l : List ℝ) : minL a l ≤ a ∧ ∀ b ∈ l, minL a l ≤ b := by
  unfold minL
  induction l generalizing a with
  | nil => exact ⟨le_refl _, fun _ h => by cases h⟩
  | cons b l ih =>
    obtain ⟨h1, h2⟩ := ih (min a b)
    refine ⟨h1.trans (min_le_left _ _), fun c hc => ?_⟩
    rcases List.mem_cons.1 hc with rfl | hc
    · exact h1.trans (min_le_right _ _)
    · exact h2 c hc

theorem minL_mem (a : ℝ) (l : List ℝ) : minL a l ∈ a :: l := by
  unfold minL
  induction l generalizing a with
  | nil => exact List.mem_cons_self
  | cons b l ih =>
    have := ih (min a b)
    rw [List.foldl_cons]
    rcases List.mem_cons.1 this with h | h
    · rw [h]
      rcases min_choice a b with h | h <;> rw [h] <;> simp
    · exact List.mem_cons_of_mem _ (List.mem_cons_of_mem _ h)

theorem le_maxL (a : ℝ) (l : List ℝ) : a ≤ maxL a l ∧ ∀ b ∈ l, b ≤ maxL a l := by
  unfold maxL
  induction l generalizing a with
  | nil => exact ⟨le_refl _, fun _ h => by cases h⟩
  | cons b l ih =>
    obtain ⟨h1, h2⟩ := ih (max a b)
    refine ⟨(le_max_left _ _).trans h1, fun c hc => ?_⟩
    rcases List.mem_cons.1 hc with rfl | hc
    · exact (le_max_right _ _).trans h1
    · exact h2 c hc

theorem maxL_mem (a : ℝ) (l : List ℝ) : maxL a l ∈ a :: l := by
  unfold maxL
  induction l generalizing a with
  | nil => exact List.mem_cons_self
  | cons b l ih =>
    have := ih (max a b)
    rw [List.foldl_cons]
    rcases List.mem_cons.1 this with h | h
    · rw [h]
      rcases max_choice a b with h | h <;> rw [h] <;> simp
    · exact List.mem_cons_of_mem _ (List.mem_cons_of_mem _ h)

/-- smallest and largest coordinate -/
theorem minmax (p : Vec ℝ) (ps : List (Vec ℝ)) (c : ℕ) :
    (∀ q ∈ p :: ps, minL (p.e c) (ps.map fun q => q.e c) ≤ q.e c ∧ q.e c ≤ maxL (p.e c) (ps.map fun q => q.e c)) ∧
      (∃ q ∈ p :: ps, minL (p.e c) (ps.map fun q => q.e c) = q.e c) ∧ ∃ q ∈ p :: ps, maxL (p.e c) (ps.map fun q => q.e c) = q.e c := by
  have hmem : ∀ r, r ∈ p.e c :: ps.map (fun q => q.e c) → ∃ q ∈ p :: ps, r = q.e c := fun r hr => by
    rw [← List.map_cons (f := fun q : Vec ℝ => q.e c)] at hr
    obtain ⟨q, hq, rfl⟩ := List.mem_map.1 hr
    exact ⟨q, hq, rfl⟩
  refine ⟨fun q hq => ?_, hmem _ (minL_mem _ _), hmem _ (maxL_mem _ _)⟩
  rcases List.mem_cons.1 hq with rfl | hq
  · exact ⟨(minL_le _ _).1, (le_maxL _ _).1⟩
  · exact ⟨(minL_le _ _).2 _ (List.mem_map.2 ⟨q, hq, rfl⟩), (le_maxL _ _).2 _ (List.mem_map.2 ⟨q, hq, rfl⟩)⟩

theorem coordinates_iff {p : Vec ℝ} {ps : List (Vec ℝ)} (hs : Separated p.n (p :: ps)) (c : ℕ) :
    c ∈ coordinates p ps ↔ c < p.n ∧ Varies (p :: ps) c := by
  unfold coordinates
  rw [List.mem_filter, List.mem_range]
  refine and_congr_right fun hc => ?_
  obtain ⟨h1, ⟨a, ha, ea⟩, ⟨b, hb, eb⟩⟩ := minmax p ps c
  unfold isclose
  simp only [decide_eq_true_eq, decide_eq_false_iff_not, not_le]
  constructor
  · intro h
    refine ⟨a, ha, b, hb, fun he => ?_⟩
    rw [ea, eb, he, sub_self, abs_zero] at h
    have := abs_nonneg (b.e c)
    norm_num at h
    linarith
  · intro h
    obtain ⟨u, hu, v, hv, hmax, hgap⟩ := hs c hc h
    have e1 : maxL (p.e c) (ps.map fun q => q.e c) = v.e c := le_antisymm (eb ▸ hmax b hb) (h1 v hv).2
    rw [e1, abs_sub_comm]
    refine lt_of_lt_of_le hgap (le_trans ?_ (le_abs_self _))
    linarith [(h1 u hu).1]

theorem coordinates_increasing (p : Vec ℝ) (ps : List (Vec ℝ)) : Spec.Increasing p.n (coordinates p ps) := by
  refine ⟨List.Pairwise.filter _ List.pairwise_lt_range, fun i hi => ?_⟩
  exact List.mem_range.1 (List.mem_filter.1 hi).1

/-- the distances differ by the same amount in the coordinates that vary -/
theorem sqDist_sub {n : ℕ} {idx : List ℕ} (hidx : Spec.Increasing n idx) {p q : Vec ℝ} (h : ∀ c < n, c ∉ idx → p.e c = q.e c) (x : ℕ → ℝ) :
    sqDist n x p.e - sqDist n x q.e =
      sqDist idx.length (fun k => x (idx.getD k 0)) (p.take idx).e - sqDist idx.length (fun k => x (idx.getD k 0)) (q.take idx).e := by
  have hnd : idx.Nodup := hidx.1.imp fun h => ne_of_lt h
  unfold sqDist
  rw [← Finset.sum_sub_distrib, ← Finset.sum_sub_distrib]
  have e : ∀ k, (x (idx.getD k 0) - (p.take idx).e k) ^ 2 - (x (idx.getD k 0) - (q.take idx).e k) ^ 2 =
      (fun c => (x c - p.e c) ^ 2 - (x c - q.e c) ^ 2) (idx.getD k 0) := fun k => rfl
  rw [Finset.sum_congr rfl fun k _ => e k, sum_getD_nodup hnd fun c => (x c - p.e c) ^ 2 - (x c - q.e c) ^ 2]
  refine (Finset.sum_subset (fun c hc => mem_range.2 (hidx.2 c (List.mem_toFinset.1 hc))) fun c hc hc' => ?_).symm
  rw [h c (mem_range.1 hc) (fun h => hc' (List.mem_toFinset.2 h)), sub_self]

/-- the closest points, in the coordinates that vary -/
theorem closest_low {n : ℕ} {idx : List ℕ} (hidx : Spec.Increasing n idx) {points : List (Vec ℝ)}
    (h : ∀ c < n, c ∉ idx → ¬ Varies points c) {i : ℕ} (hi : i < points.length) (x : ℕ → ℝ) :
    Closest idx.length (points.map fun q => q.take idx) i (fun k => x (idx.getD k 0)) ↔ Closest n points i x := by
  have hpt : (points.map fun q => q.take idx).getD i ⟨0, fun _ => 0⟩ = (pt points i).take idx := by
    unfold pt
    rw [List.getD_eq_getElem _ _ (by simpa using hi), List.getD_eq_getElem _ _ hi, List.getElem_map]
  unfold Closest
  rw [hpt, List.forall_mem_map]
  refine forall_congr' fun q => forall_congr' fun hq => ?_
  have := sqDist_sub hidx (p := pt points i) (q := q) (fun c hc hc' => by
    by_contra hne
    exact h c hc hc' ⟨_, pt_mem hi, q, hq, hne⟩) x
  show _ ↔ sqDist n x (pt points i).e ≤ _
  constructor <;> intro h <;> linarith

/-- a cell in the original space -/
theorem lift_run {n : ℕ} {idx : List ℕ} (hidx : Spec.Increasing n idx) {c : Poly} (hc : c.Inv idx.length) (h0 : c.C.nr = 0) {X : Option Poly}
    (hX : ∀ X', X = some X' → X'.Inv n) : ∃ q, lift n idx X c = .ok q ∧ q.Inv n ∧ ∀ x, q.Mem x ↔ c.Mem (fun k => x (idx.getD k 0)) ∧
      ∀ X', X = some X' → ∀ i < X'.A.nr, ∑ j ∈ range n, X'.A.e i j * x j ≤ X'.b.e i := by
  obtain ⟨-, k1, k2, k3⟩ := C01 (Mat.zeros 0 n) (.d1 (Vec.zeros 0)) none none
  obtain ⟨p, hp⟩ := k1.2 ⟨rfl, rfl, Or.inl ⟨rfl, rfl⟩⟩
  have hinv : p.Inv n := k3 p hp (fun _ h => by cases h)
  have hall : ∀ x, p.Mem x := fun x => by
    obtain ⟨v, -, hm⟩ := k2 p hp
    exact (hm x).2 ⟨fun i hi => absurd hi (Nat.not_lt_zero i), fun _ _ h => by cases h⟩
  obtain ⟨a1, a2, -⟩ := C02 n p hinv c.A (.d1 c.b) (some idx) (fun l h => by cases h; exact hidx)
  obtain ⟨q1, hq1⟩ := a1.2 ⟨rfl, hc.2.1, hc.1⟩
  obtain ⟨i1, v, hv, m1⟩ := a2 q1 hq1
  cases hv
  have m1' : ∀ x, q1.Mem x ↔ c.Mem (fun k => x (idx.getD k 0)) := fun x => by
    rw [m1]
    unfold Poly.Mem Spec.InPoly
    rw [h0]
    exact ⟨fun h => ⟨h.2, fun i hi => absurd hi (Nat.not_lt_zero i)⟩, fun h => ⟨hall x, h.1⟩⟩
  have r1 : Poly.runOn p (Poly.add_inequality c.A (.d1 c.b) (some idx)) = .ok q1 := by
    unfold Poly.runOn
    rw [hq1]
  unfold lift
  rw [hp, Py.ok_bind, r1, Py.ok_bind]
  cases X with
  | none => exact ⟨q1, rfl, i1, fun x => by rw [m1']; exact ⟨fun h => ⟨h, fun _ h => by cases h⟩, fun h => h.1⟩⟩
  | some X =>
    have hX' := hX X rfl
    obtain ⟨b1, b2, -⟩ := C02 n q1 i1 X.A (.d1 X.b) none (fun l h => by cases h)
    obtain ⟨q2, hq2⟩ := b1.2 ⟨rfl, hX'.2.1, by rw [hX'.1]; exact List.length_range.symm⟩
    obtain ⟨i2, v, hv, m2⟩ := b2 q2 hq2
    cases hv
    refine ⟨q2, by show Poly.runOn q1 _ = _; unfold Poly.runOn; rw [hq2], i2, fun x => ?_⟩
    rw [m2, m1']
    refine and_congr_right fun _ => ?_
    unfold Spec.IneqAt
    have e : ∀ i, ∑ k ∈ range X.A.nc, X.A.e i k * x (((none : Option (List ℕ)).getD (List.range n)).getD k 0) = ∑ j ∈ range n, X.A.e i j * x j := fun i => by
      rw [hX'.1]
      refine Finset.sum_congr rfl fun k hk => ?_
      rw [show (none : Option (List ℕ)).getD (List.range n) = List.range n from rfl,
        List.getD_eq_getElem _ _ (by rw [List.length_range]; exact mem_range.1 hk), List.getElem_range]
    simp only [e]
    exact ⟨fun h X' hX' => by cases hX'; exact h, fun h => h X rfl⟩

/-- the lifted cells are the closest points -/
theorem lift_partition {n : ℕ} {idx : List ℕ} (hidx : Spec.Increasing n idx) {points : List (Vec ℝ)} (h : ∀ c < n, c ∉ idx → ¬ Varies points c)
    {X : Option Poly} (hX : ∀ X', X = some X' → X'.Inv n) {vor : List Poly} (hv : IsPartition idx.length (points.map fun q => q.take idx) vor) :
    ∃ cells, vor.mapM (lift n idx X) = .ok cells ∧ cells.length = points.length ∧ (∀ c ∈ cells, c.Inv n) ∧ ∀ i < points.length, ∀ x,
      (cells.getD i (Poly.fresh (Mat.zeros 0 n) (Vec.zeros 0) (Mat.zeros 0 n) (Vec.zeros 0))).Mem x ↔ Closest n points i x ∧
        ∀ X', X = some X' → ∀ i < X'.A.nr, ∑ j ∈ range n, X'.A.e i j * x j ≤ X'.b.e i := by
  have hlen : vor.length = points.length := by
    have := hv.length_eq
    simpa using this.symm
  have hget : ∀ i < points.length, ∀ d : Poly, (vor.getD i d).Inv idx.length ∧ (vor.getD i d).C.nr = 0 ∧
      ∀ x, (vor.getD i d).Mem x ↔ Closest idx.length (points.map fun q => q.take idx) i x := fun i hi d => by
    have := Sympy.forall₂_getD hv 0 d i (by simpa using hi)
    have e : (List.range (points.map fun q => q.take idx).length).getD i 0 = i := by
      rw [List.getD_eq_getElem _ _ (by simpa using hi), List.getElem_range]
    rw [e] at this
    exact this
  have hmem : ∀ c ∈ vor, c.Inv idx.length ∧ c.C.nr = 0 := fun c hc => by
    obtain ⟨i, hi, rfl⟩ := List.getElem_of_mem hc
    have := hget i (hlen ▸ hi) vor[i]
    rw [List.getD_eq_getElem _ _ hi] at this
    exact ⟨this.1, this.2.1⟩
  obtain ⟨cells, hcells⟩ := Sympy.mapM_exists (f := lift n idx X) (l := vor) fun c hc => (lift_run hidx (hmem c hc).1 (hmem c hc).2 hX).imp fun q hq => hq.1
  have h2 := Sympy.mapM_forall₂ hcells
  refine ⟨cells, hcells, h2.length_eq.symm.trans hlen, fun c hc => ?_, fun i hi x => ?_⟩
  · obtain ⟨i, hi, rfl⟩ := List.getElem_of_mem hc
    have hi' : i < vor.length := h2.length_eq ▸ hi
    have := Sympy.forall₂_getD h2 cells[i] cells[i] i hi'
    rw [List.getD_eq_getElem _ _ hi', List.getD_eq_getElem _ _ hi] at this
    obtain ⟨q, hq, hinv, -⟩ := lift_run hidx (hmem _ (List.getElem_mem hi')).1 (hmem _ (List.getElem_mem hi')).2 hX
    rw [hq] at this
    cases this
    exact hinv
  set d := Poly.fresh (Mat.zeros 0 n) (Vec.zeros 0) (Mat.zeros 0 n) (Vec.zeros 0)
  obtain ⟨g1, g2, g3⟩ := hget i hi d
  obtain ⟨q, hq, -, hm⟩ := lift_run hidx g1 g2 hX
  have := Sympy.forall₂_getD h2 d d i (hlen ▸ hi)
  rw [hq] at this
  cases this
  rw [hm, g3, closest_low hidx h hi x]

theorem distinct_low {n : ℕ} {idx : List ℕ} {points : List (Vec ℝ)} (h : ∀ c < n, c ∉ idx → ¬ Varies points c) (hd : Distinct n points) :
    Distinct idx.length (points.map fun q => q.take idx) := by
  intro i hi j hj hne
  rw [List.length_map] at hi hj
  obtain ⟨c, hc, hv⟩ := hd i hi j hj hne
  have hmem : c ∈ idx := by
    by_contra hcon
    exact h c hc hcon ⟨_, pt_mem hi, _, pt_mem hj, hv⟩
  obtain ⟨k, hk, rfl⟩ := List.getElem_of_mem hmem
  refine ⟨k, hk, ?_⟩
  rw [List.getD_eq_getElem _ _ (by simpa using hi), List.getD_eq_getElem _ _ (by simpa using hj), List.getElem_map, List.getElem_map]
  rw [List.getD_eq_getElem _ _ hi, List.getD_eq_getElem _ _ hj] at hv
  show points[i].e (idx.getD k 0) ≠ points[j].e (idx.getD k 0)
  rw [List.getD_eq_getElem _ _ hk]
  exact hv

/-- the set given by the inequalities of `X` -/
def InBounds (n : ℕ) (X : Option Poly) (x : ℕ → ℝ) : Prop :=
  ∀ X', X = some X' → ∀ i < X'.A.nr, ∑ j ∈ range n, X'.A.e i j * x j ≤ X'.b.e i

/-- exactly one coordinate varies -/
def OneVaries (n : ℕ) (points : List (Vec ℝ)) (c : ℕ) : Prop := c < n ∧ Varies points c ∧ ∀ d < n, Varies points d → d = c

/-- the points are not on a hyperplane of the space of the coordinates that vary -/
def SpreadIn (n : ℕ) (points : List (Vec ℝ)) : Prop :=
  ∀ (a : ℕ → ℝ) (d : ℝ), (∀ v ∈ points, ∑ j ∈ range n, a j * v.e j = d) → ∀ j < n, Varies points j → a j = 0

/-- C77 (partial): the Voronoi partition of distinct points whose coordinates are either the same for all points or differ by more than the tolerances
of `isclose`.  If it answers, the cells are polyhedra with consistent sizes in this space, and cell `i` contains exactly the points of the inequalities of `X` closest to point `i` of a reordering of the list, and the
cells cover this set; the reordering is the list itself if more than one coordinate varies, and the list sorted along the coordinate if only one varies (so
the list itself if it is sorted).  It answers if one coordinate varies, and if more of them vary and the points are not on a hyperplane.

Missing: the order of the cells in one dimension (`C77_false`), small differences of coordinates (`C77_close_false`) and the equalities of `X`
(`C77_equality_false`). -/
theorem C77_partial (V : Vor) (hV : VorSpec V) (n : ℕ) (points : List (Vec ℝ)) (hne : points ≠ []) (hn : ∀ p ∈ points, p.n = n)
    (hd : Distinct n points) (hs : Separated n points) (X : Option Poly) (hX : ∀ X', X = some X' → X'.Inv n) :
    (∀ cells, constrained_voronoi V points X = .ok cells → ∃ points' : List (Vec ℝ), points'.Perm points ∧ cells.length = points.length ∧
      (∀ c ∈ cells, c.Inv n) ∧ ((∀ c, ¬ OneVaries n points c) → points' = points) ∧
      (∀ c, OneVaries n points c → points'.Pairwise fun p q => p.e c < q.e c) ∧
      (∀ i < points.length, ∀ x, (cells.getD i (Poly.fresh (Mat.zeros 0 n) (Vec.zeros 0) (Mat.zeros 0 n) (Vec.zeros 0))).Mem x ↔
        Closest n points' i x ∧ InBounds n X x) ∧
      ∀ x, InBounds n X x → ∃ c ∈ cells, c.Mem x) ∧
    ((∃ c, OneVaries n points c) → ∃ cells, constrained_voronoi V points X = .ok cells) ∧
    ((∃ c < n, ∃ d < n, c ≠ d ∧ Varies points c ∧ Varies points d) → SpreadIn n points → ∃ cells, constrained_voronoi V points X = .ok cells) := by
  obtain ⟨p, ps, rfl⟩ : ∃ p ps, points = p :: ps := by
    cases points with
    | nil => exact absurd rfl hne
    | cons p ps => exact ⟨p, ps, rfl⟩
  obtain rfl : p.n = n := hn p List.mem_cons_self
  set idx := coordinates p ps with hidx
  have hinc : Spec.Increasing p.n idx := coordinates_increasing p ps
  have hmem : ∀ c, c ∈ idx ↔ c < p.n ∧ Varies (p :: ps) c := coordinates_iff hs
  have hnot : ∀ c < p.n, c ∉ idx → ¬ Varies (p :: ps) c := fun c hc h hv => h ((hmem c).2 ⟨hc, hv⟩)
  set low := (p :: ps).map fun q => q.take idx with hlow
  have hrun : constrained_voronoi V (p :: ps) X = (partition V idx low >>= fun vor => vor.mapM (lift p.n idx X)) := by
    have h1 : ((p :: ps).mapM fun q => np.take q idx) = .ok low := mapM_ok fun q hq => if_pos fun i hi => by rw [hn q hq]; exact hinc.2 i hi
    unfold constrained_voronoi
    simp only
    rw [if_pos fun q hq => hn q (List.mem_cons_of_mem _ hq)]
    show (((p :: ps).mapM fun q => np.take q idx) >>= _) = _
    rw [h1]
    rfl
  have hlown : ∀ q ∈ low, q.n = idx.length := fun q hq => by
    obtain ⟨r, -, rfl⟩ := List.mem_map.1 hq
    rfl
  have hone : idx.length = 1 ↔ ∃ c, OneVaries p.n (p :: ps) c := by
    constructor
    · intro h
      obtain ⟨c, hc⟩ := List.length_eq_one_iff.1 h
      have h1 := (hmem c).1 (by rw [hc]; exact List.mem_singleton.2 rfl)
      refine ⟨c, h1.1, h1.2, fun d hd hv => ?_⟩
      have := (hmem d).2 ⟨hd, hv⟩
      rw [hc] at this
      exact List.mem_singleton.1 this
    · rintro ⟨c, hc, hv, hu⟩
      have hnd : idx.Nodup := hinc.1.imp fun h => ne_of_lt h
      have : idx.toFinset = {c} := by
        ext d
        rw [List.mem_toFinset, hmem, Finset.mem_singleton]
        exact ⟨fun h => hu d h.1 h.2, fun h => by rw [h]; exact ⟨hc, hv⟩⟩
      rw [← List.toFinset_card_of_nodup hnd, this, Finset.card_singleton]
  -- the cover
  have cover : ∀ (points' : List (Vec ℝ)) (cells : List Poly), points'.Perm (p :: ps) → cells.length = (p :: ps).length →
      (∀ i < (p :: ps).length, ∀ x, (cells.getD i (Poly.fresh (Mat.zeros 0 p.n) (Vec.zeros 0) (Mat.zeros 0 p.n) (Vec.zeros 0))).Mem x ↔
        Closest p.n points' i x ∧ InBounds p.n X x) → ∀ x, InBounds p.n X x → ∃ c ∈ cells, c.Mem x := by
    intro points' cells hperm hlen hm x hx
    obtain ⟨i, hi, hmin⟩ := Finset.exists_min_image (range points'.length) (fun i => sqDist p.n x (pt points' i).e)
      ⟨0, mem_range.2 (by rw [hperm.length_eq]; exact Nat.succ_pos _)⟩
    have hi' : i < (p :: ps).length := hperm.length_eq ▸ mem_range.1 hi
    refine ⟨_, ?_, (hm i hi' x).2 ⟨closest_iff.2 fun k hk => hmin k (mem_range.2 hk), hx⟩⟩
    rw [List.getD_eq_getElem _ _ (by rw [hlen]; exact hi')]
    exact List.getElem_mem _
  by_cases h1 : idx.length = 1
  · -- one coordinate
    obtain ⟨c, hc⟩ := List.length_eq_one_iff.1 h1
    have hcone : OneVaries p.n (p :: ps) c := by
      obtain ⟨c', hc'⟩ := hone.1 h1
      have := (hmem c').2 ⟨hc'.1, hc'.2.1⟩
      rw [hc] at this
      rw [← List.mem_singleton.1 this]
      exact hc'
    have hunique : ∀ c', OneVaries p.n (p :: ps) c' → c' = c := fun c' h => hcone.2.2 c' h.1 h.2.1
    have htake : ∀ q : Vec ℝ, (q.take idx).e 0 = q.e c := fun q => by
      show q.e (idx.getD 0 0) = _
      rw [hc]
      rfl
    have hpw : (p :: ps).Pairwise fun p q => p.e c ≠ q.e c := by
      rw [List.pairwise_iff_getElem]
      intro i j hi hj hij he
      obtain ⟨d, hd', hv⟩ := hd i hi j hj (by omega)
      rw [List.getD_eq_getElem _ _ hi, List.getD_eq_getElem _ _ hj] at hv
      have : d = c := hcone.2.2 d hd' ⟨_, List.getElem_mem hi, _, List.getElem_mem hj, hv⟩
      rw [this] at hv
      exact hv he
    set points' := (p :: ps).insertionSort fun p q => p.e c ≤ q.e c with hp'
    have hperm : points'.Perm (p :: ps) := List.perm_insertionSort _ _
    have hmap : points'.map (fun q => q.take idx) = low.insertionSort fun p q => p.e 0 ≤ q.e 0 :=
      List.map_insertionSort _ (fun p q : Vec ℝ => p.e 0 ≤ q.e 0) _ _ fun a _ b _ => by rw [htake, htake]
    obtain ⟨hsort, hsame⟩ := line_sorted (points := low) (by
      rw [hlow, List.pairwise_map]
      exact hpw.imp fun h => by rw [htake, htake]; exact h)
    rw [← hmap] at hsort hsame
    have hvar' : ∀ d, Varies points' d ↔ Varies (p :: ps) d := fun d => by
      unfold Varies
      simp only [hperm.mem_iff]
    have hlen2 : 2 ≤ (p :: ps).length := by
      obtain ⟨a, ha, b, hb, hab⟩ := hcone.2.1
      cases ps with
      | nil =>
        rw [List.mem_singleton.1 ha, List.mem_singleton.1 hb] at hab
        exact absurd rfl hab
      | cons q qs => simp
    obtain ⟨vor, hvor, hpart⟩ := line_partition (points := points'.map fun q => q.take idx) (fun q hq => by
      obtain ⟨r, -, rfl⟩ := List.mem_map.1 hq
      exact h1) hsort (by rw [List.length_map, hperm.length_eq]; exact hlen2)
    rw [hsame] at hvor
    obtain ⟨cells, hcells, hl, hI, hm⟩ := lift_partition hinc (points := points') (fun c hc h hv => hnot c hc h ((hvar' c).1 hv)) hX (by rw [h1]; exact hpart)
    have hfin : constrained_voronoi V (p :: ps) X = .ok cells := by
      rw [hrun, show partition V idx low = voronoi_1d low from if_pos h1, hvor]
      exact hcells
    rw [hperm.length_eq] at hl hm
    refine ⟨fun cells' h' => ?_, fun _ => ⟨cells, hfin⟩, fun _ _ => ⟨cells, hfin⟩⟩
    rw [hfin] at h'
    cases h'
    refine ⟨points', hperm, hl, hI, fun h => absurd hcone (h c), fun c' hc' => ?_, hm, cover points' cells hperm hl hm⟩
    rw [hunique c' hc']
    have := List.pairwise_map.1 hsort
    exact this.imp fun h => by rwa [htake, htake] at h
  · -- more coordinates
    have hpart : partition V idx low = voronoi_nd V low := if_neg h1
    have fin : ∀ vor, voronoi_nd V low = .ok vor → ∃ cells, constrained_voronoi V (p :: ps) X = .ok cells ∧ cells.length = (p :: ps).length ∧
        (∀ c ∈ cells, c.Inv p.n) ∧ ∀ i < (p :: ps).length, ∀ x, (cells.getD i (Poly.fresh (Mat.zeros 0 p.n) (Vec.zeros 0) (Mat.zeros 0 p.n) (Vec.zeros 0))).Mem x ↔
          Closest p.n (p :: ps) i x ∧ InBounds p.n X x := fun vor hvor => by
      obtain ⟨cells, hcells, hl, hI, hm⟩ := lift_partition hinc hnot hX (nd_partition hV hlown (distinct_low hnot hd) hvor)
      refine ⟨cells, ?_, hl, hI, hm⟩
      rw [hrun, hpart, hvor]
      exact hcells
    refine ⟨fun cells h' => ?_, fun h => absurd (hone.2 h) h1, fun ⟨c, hc, d, hd', hcd, hvc, hvd⟩ hsp => ?_⟩
    · rw [hrun, hpart] at h'
      obtain ⟨vor, hvor, h''⟩ := Py.bind_eq_ok h'
      obtain ⟨cells', hfin, hl, hI, hm⟩ := fin vor hvor
      rw [hrun, hpart, h'] at hfin
      cases hfin
      exact ⟨p :: ps, List.Perm.refl _, hl, hI, fun _ => rfl, fun c hc => absurd (hone.2 ⟨c, hc⟩) h1, hm, cover _ cells (List.Perm.refl _) hl hm⟩
    · have hnd : idx.Nodup := hinc.1.imp fun h => ne_of_lt h
      have h2 : 2 ≤ idx.length := by
        have : ({c, d} : Finset ℕ) ⊆ idx.toFinset := fun e he => by
          rw [List.mem_toFinset, hmem]
          rcases Finset.mem_insert.1 he with rfl | he
          · exact ⟨hc, hvc⟩
          · rw [Finset.mem_singleton.1 he]; exact ⟨hd', hvd⟩
        have := Finset.card_le_card this
        rwa [Finset.card_pair hcd, List.toFinset_card_of_nodup hnd] at this
      obtain ⟨vor, hvor⟩ := nd_answers hV h2 hlown (distinct_low hnot hd) (by
        intro a d ha k hk
        have := hsp (fun j => if j ∈ idx then a (idx.idxOf j) else 0) d (fun v hv => by
          rw [← ha (v.take idx) (List.mem_map.2 ⟨v, hv, rfl⟩)]
          have e : ∀ k ∈ range idx.length, a k * (v.take idx).e k = (fun j => a (idx.idxOf j) * v.e j) (idx.getD k 0) := fun k hk => by
            have hk' := mem_range.1 hk
            show a k * v.e (idx.getD k 0) = a (idx.idxOf (idx.getD k 0)) * v.e (idx.getD k 0)
            rw [List.getD_eq_getElem _ _ hk', hnd.idxOf_getElem k hk']
          rw [Finset.sum_congr rfl e, sum_getD_nodup hnd fun j => a (idx.idxOf j) * v.e j]
          rw [← Finset.sum_subset (s₁ := idx.toFinset) (fun c hc => mem_range.2 (hinc.2 c (List.mem_toFinset.1 hc))) fun c _ hc' => ?_]
          · exact Finset.sum_congr rfl fun j hj => by rw [if_pos (List.mem_toFinset.1 hj)]
          · rw [if_neg (fun h => hc' (List.mem_toFinset.2 h)), zero_mul]) idx[k] (hinc.2 _ (List.getElem_mem hk)) ((hmem _).1 (List.getElem_mem hk)).2
        rwa [if_pos (List.getElem_mem hk), hnd.idxOf_getElem k hk] at this)
      obtain ⟨cells, hfin, -⟩ := fin vor hvor
      exact ⟨cells, hfin⟩

/-- the contract of the library can be met: all pairs of different indices -/
theorem exists_vor : ∃ V : Vor, VorSpec V := by
  refine ⟨⟨fun points => .ok (((List.range points.length).product (List.range points.length)).filter fun r => r.1 ≠ r.2)⟩, ?_, ?_, ?_⟩
  · intro n points rs _ h r hr
    obtain rfl := Except.ok.inj h
    obtain ⟨h1, h2⟩ := List.mem_filter.1 hr
    obtain ⟨h3, h4⟩ := List.mem_product.1 (show (r.1, r.2) ∈ _ from h1)
    exact ⟨List.mem_range.1 h3, List.mem_range.1 h4, by simpa using h2⟩
  · intro n points rs _ _ h i hi j hj hij _
    obtain rfl := Except.ok.inj h
    refine Or.inl (List.mem_filter.2 ⟨List.mem_product.2 ⟨List.mem_range.2 hi, List.mem_range.2 hj⟩, by simpa using hij⟩)
  · intro n points _ _ _ _
    exact ⟨_, rfl⟩

/-- the point `(a, b)` of the plane -/
def inPlane (a b : ℝ) : Vec ℝ := ⟨2, fun i => if i = 0 then a else b⟩

/-- the hypotheses of C77 hold for the points `(0, 0)`, `(1, 0)`, `(0, 1)` of the plane: the first cell is `x <= 1/2, y <= 1/2` -/
example (V : Vor) (hV : VorSpec V) : ∃ c0 c1 c2, constrained_voronoi V [inPlane 0 0, inPlane 1 0, inPlane 0 1] = .ok [c0, c1, c2] ∧
    ∀ x, c0.Mem x ↔ x 0 ≤ 1 / 2 ∧ x 1 ≤ 1 / 2 := by
  set pts := [inPlane 0 0, inPlane 1 0, inPlane 0 1] with hpts
  have hmem : ∀ r ∈ pts, r = inPlane 0 0 ∨ r = inPlane 1 0 ∨ r = inPlane 0 1 := fun r hr => by simpa [hpts] using hr
  have hv : ∀ c < 2, Varies pts c := fun c hc => by
    interval_cases c
    · exact ⟨inPlane 0 0, by simp [hpts], inPlane 1 0, by simp [hpts], zero_ne_one (α := ℝ)⟩
    · exact ⟨inPlane 0 0, by simp [hpts], inPlane 0 1, by simp [hpts], zero_ne_one (α := ℝ)⟩
  have hsep : Separated 2 pts := fun c hc _ => by
    interval_cases c
    · refine ⟨inPlane 0 0, by simp [hpts], inPlane 1 0, by simp [hpts], fun r hr => ?_, ?_⟩
      · show r.e 0 ≤ 1
        rcases hmem r hr with rfl | rfl | rfl
        · exact zero_le_one (α := ℝ)
        · exact le_refl (1 : ℝ)
        · exact zero_le_one (α := ℝ)
      · show (1e-8 : ℝ) + 1e-5 * |1| < 1 - 0
        norm_num
    · refine ⟨inPlane 0 0, by simp [hpts], inPlane 0 1, by simp [hpts], fun r hr => ?_, ?_⟩
      · show r.e 1 ≤ 1
        rcases hmem r hr with rfl | rfl | rfl
        · exact zero_le_one (α := ℝ)
        · exact zero_le_one (α := ℝ)
        · exact le_refl (1 : ℝ)
      · show (1e-8 : ℝ) + 1e-5 * |1| < 1 - 0
        norm_num
  have hdist : Distinct 2 pts := by
    intro i hi j hj hne
    have hi' : i < 3 := hi
    have hj' : j < 3 := hj
    interval_cases i <;> interval_cases j <;> first
      | exact absurd rfl hne
      | exact ⟨0, by decide, zero_ne_one (α := ℝ)⟩
      | exact ⟨0, by decide, one_ne_zero (α := ℝ)⟩
      | exact ⟨1, by decide, zero_ne_one (α := ℝ)⟩
      | exact ⟨1, by decide, one_ne_zero (α := ℝ)⟩
  have hspread : SpreadIn 2 pts := fun a d h j hj _ => by
    have e : ∀ u v : ℝ, ∑ j ∈ range 2, a j * (inPlane u v).e j = a 0 * u + a 1 * v := fun u v => by
      rw [Finset.sum_range_succ, Finset.sum_range_one]
      rfl
    have h0 := (e 0 0).symm.trans (h (inPlane 0 0) (by simp [hpts]))
    have h1 := (e 1 0).symm.trans (h (inPlane 1 0) (by simp [hpts]))
    have h2 := (e 0 1).symm.trans (h (inPlane 0 1) (by simp [hpts]))
    interval_cases j <;> linarith
  have hnone : ∀ c, ¬ OneVaries 2 pts c := fun c h => by
    have h0 := h.2.2 0 (by decide) (hv 0 (by decide))
    have h1 := h.2.2 1 (by decide) (hv 1 (by decide))
    omega
  obtain ⟨h1, -, h3⟩ := C77_partial V hV 2 pts (by simp [hpts]) (fun r hr => by rcases hmem r hr with rfl | rfl | rfl <;> rfl) hdist hsep none
    (fun _ h => by cases h)
  obtain ⟨cells, hc⟩ := h3 ⟨0, by decide, 1, by decide, by decide, hv 0 (by decide), hv 1 (by decide)⟩ hspread
  obtain ⟨points', -, hl, -, heq, -, hm, -⟩ := h1 cells hc
  obtain rfl := heq hnone
  obtain ⟨c0, c1, c2, rfl⟩ := List.length_eq_three.1 hl
  refine ⟨c0, c1, c2, hc, fun x => ?_⟩
  have e : ∀ u v, sqDist 2 x (inPlane u v).e = (x 0 - u) ^ 2 + (x 1 - v) ^ 2 := fun u v => by
    unfold sqDist
    rw [Finset.sum_range_succ, Finset.sum_range_one]
    rfl
  refine (hm 0 (show 0 < 3 by decide) x).trans ⟨fun h => ?_, fun h => ⟨fun p hp => ?_, fun _ h => by cases h⟩⟩
  · have k1 : sqDist 2 x (inPlane 0 0).e ≤ _ := h.1 (inPlane 1 0) (by simp [hpts])
    have k2 : sqDist 2 x (inPlane 0 0).e ≤ _ := h.1 (inPlane 0 1) (by simp [hpts])
    rw [e, e] at k1 k2
    constructor <;> nlinarith
  · show sqDist 2 x (inPlane 0 0).e ≤ _
    rcases hmem p hp with rfl | rfl | rfl <;> simp only [e] <;> nlinarith [h.1, h.2]

/-! ### counterexamples -/

/-- the point `a` of the line -/
def onLine (a : ℝ) : Vec ℝ := ⟨1, fun _ => a⟩

theorem onLine_distinct {a b : ℝ} (h : a ≠ b) : Distinct 1 [onLine a, onLine b] := by
  intro i hi j hj hne
  have hi' : i < 2 := hi
  have hj' : j < 2 := hj
  refine ⟨0, Nat.zero_lt_one, ?_⟩
  interval_cases i <;> interval_cases j
  · exact absurd rfl hne
  · exact h
  · exact Ne.symm h
  · exact absurd rfl hne

theorem onLine_one {a b : ℝ} (h : a ≠ b) : OneVaries 1 [onLine a, onLine b] 0 :=
  ⟨Nat.zero_lt_one, ⟨onLine a, by simp, onLine b, by simp, h⟩, fun d hd _ => by omega⟩

theorem onLine_sizes (a b : ℝ) : ∀ p ∈ [onLine a, onLine b], p.n = 1 := fun p hp => by
  simp only [List.mem_cons, List.not_mem_nil, or_false] at hp
  rcases hp with rfl | rfl <;> rfl

theorem onLine_separated_01 : Separated 1 [onLine 0, onLine 1] := fun c _ _ =>
  ⟨onLine 0, by simp, onLine 1, by simp, fun r hr => by
    simp only [List.mem_cons, List.not_mem_nil, or_false] at hr
    rcases hr with rfl | rfl
    · exact zero_le_one (α := ℝ)
    · exact le_refl (1 : ℝ), by show (1e-8 : ℝ) + 1e-5 * |1| < 1 - 0; norm_num⟩

theorem onLine_separated_10 : Separated 1 [onLine 1, onLine 0] := fun c _ _ =>
  ⟨onLine 0, by simp, onLine 1, by simp, fun r hr => by
    simp only [List.mem_cons, List.not_mem_nil, or_false] at hr
    rcases hr with rfl | rfl
    · exact le_refl (1 : ℝ)
    · exact zero_le_one (α := ℝ), by show (1e-8 : ℝ) + 1e-5 * |1| < 1 - 0; norm_num⟩

/-- the hypotheses of C77 hold for the points `0`, `1` of the line, and the cells are `x <= 1/2` and `x >= 1/2` -/
example (V : Vor) (hV : VorSpec V) : ∃ cells, constrained_voronoi V [onLine 0, onLine 1] = .ok cells ∧ cells.length = 2 := by
  obtain ⟨h1, h2, -⟩ := C77_partial V hV 1 _ (by simp) (onLine_sizes 0 1) (onLine_distinct (by norm_num)) onLine_separated_01 none (fun _ h => by cases h)
  obtain ⟨cells, hc⟩ := h2 ⟨0, onLine_one (by norm_num)⟩
  obtain ⟨_, _, hl, -⟩ := h1 cells hc
  exact ⟨cells, hc, hl⟩

/-- C77 is false: for the points `1`, `0` of the line the first cell contains `0`, which is not closest to the first point. -/
theorem C77_false (V : Vor) (hV : VorSpec V) : ∃ c0 c1, constrained_voronoi V [onLine 1, onLine 0] = .ok [c0, c1] ∧
    c0.Mem (fun _ => 0) ∧ ¬ Closest 1 [onLine 1, onLine 0] 0 (fun _ => 0) := by
  obtain ⟨h1, h2, -⟩ := C77_partial V hV 1 _ (by simp) (onLine_sizes 1 0) (onLine_distinct (by norm_num)) onLine_separated_10 none (fun _ h => by cases h)
  obtain ⟨cells, hc⟩ := h2 ⟨0, onLine_one (by norm_num)⟩
  obtain ⟨points', hperm, hl, -, -, hs, hm, -⟩ := h1 cells hc
  obtain ⟨c0, c1, rfl⟩ := List.length_eq_two.1 hl
  obtain ⟨a, b, rfl⟩ := List.length_eq_two.1 (show points'.length = 2 from hperm.length_eq)
  have hab : a.e 0 < b.e 0 := by
    have := hs 0 (onLine_one (by norm_num))
    simpa using this
  have mem : ∀ q ∈ [a, b], q.e 0 = 1 ∨ q.e 0 = 0 := fun q hq => by
    have := hperm.mem_iff.1 hq
    simp only [List.mem_cons, List.not_mem_nil, or_false] at this
    rcases this with rfl | rfl
    · exact Or.inl rfl
    · exact Or.inr rfl
  have ha0 : a.e 0 = 0 := by
    rcases mem a (by simp) with h | h
    · rcases mem b (by simp) with h' | h' <;> linarith
    · exact h
  refine ⟨c0, c1, hc, (hm 0 (by decide) _).2 ⟨fun q hq => ?_, fun _ h => by cases h⟩, fun h => ?_⟩
  · show sqDist 1 (fun _ => 0) a.e ≤ _
    rw [sqDist_one, sqDist_one, ha0]
    have := sq_nonneg (0 - q.e 0)
    simpa using this
  · have := h (onLine 0) (by simp)
    rw [sqDist_one, sqDist_one] at this
    have h' : ((0 : ℝ) - 1) ^ 2 ≤ (0 - 0) ^ 2 := this
    norm_num at h'

/-- the polyhedron `x = 5` of the line -/
noncomputable def five : Poly := Poly.fresh (Mat.zeros 0 1) (Vec.zeros 0) ⟨1, 1, fun _ _ => 1⟩ ⟨1, fun _ => 5⟩

/-- C77 is false for sets with equalities: in the partition of `x = 5` by the points `0`, `1` the first cell contains `0`. -/
theorem C77_equality_false (V : Vor) (hV : VorSpec V) : ∃ c0 c1, constrained_voronoi V [onLine 0, onLine 1] (some five) = .ok [c0, c1] ∧
    c0.Mem (fun _ => 0) ∧ ¬ five.Mem (fun _ => 0) := by
  have hinv : five.Inv 1 := ⟨rfl, rfl, rfl, rfl⟩
  obtain ⟨h1, h2, -⟩ := C77_partial V hV 1 _ (by simp) (onLine_sizes 0 1) (onLine_distinct (by norm_num)) onLine_separated_01 (some five)
    (fun _ h => by cases h; exact hinv)
  obtain ⟨cells, hc⟩ := h2 ⟨0, onLine_one (by norm_num)⟩
  obtain ⟨points', hperm, hl, -, -, hs, hm, -⟩ := h1 cells hc
  obtain ⟨c0, c1, rfl⟩ := List.length_eq_two.1 hl
  obtain ⟨a, b, rfl⟩ := List.length_eq_two.1 (show points'.length = 2 from hperm.length_eq)
  have hab : a.e 0 < b.e 0 := by
    have := hs 0 (onLine_one (by norm_num))
    simpa using this
  have mem : ∀ q ∈ [a, b], q.e 0 = 0 ∨ q.e 0 = 1 := fun q hq => by
    have := hperm.mem_iff.1 hq
    simp only [List.mem_cons, List.not_mem_nil, or_false] at this
    rcases this with rfl | rfl
    · exact Or.inl rfl
    · exact Or.inr rfl
  have ha0 : a.e 0 = 0 := by
    rcases mem a (by simp) with h | h
    · exact h
    · rcases mem b (by simp) with h' | h' <;> linarith
  refine ⟨c0, c1, hc, (hm 0 (by decide) _).2 ⟨fun q hq => ?_, fun X' h i hi => ?_⟩, fun h => ?_⟩
  · show sqDist 1 (fun _ => 0) a.e ≤ _
    rw [sqDist_one, sqDist_one, ha0]
    have := sq_nonneg (0 - q.e 0)
    simpa using this
  · cases h
    exact absurd hi (Nat.not_lt_zero i)
  · have := h.2 0 Nat.zero_lt_one
    have h' : ∑ j ∈ range 1, (1 : ℝ) * 0 = 5 := this
    norm_num at h'

/-- the points `(0, 0)` and `(1, 1e-9)` -/
noncomputable def near0 : Vec ℝ := ⟨2, fun _ => 0⟩
noncomputable def near1 : Vec ℝ := ⟨2, fun i => if i = 0 then 1 else 1e-9⟩

/-- C77 is false for points with slightly different coordinates: for `(0, 0)` and `(1, 1e-9)` the second coordinate is ignored; the first cell contains
`(1/2, 1)`, which is closer to the second point. -/
theorem C77_close_false (V : Vor) : ∃ c0 c1, constrained_voronoi V [near0, near1] = .ok [c0, c1] ∧
    c0.Mem (fun j => if j = 0 then 1 / 2 else 1) ∧ ¬ Closest 2 [near0, near1] 0 (fun j => if j = 0 then 1 / 2 else 1) := by
  have hidx : coordinates near0 [near1] = [0] := by
    unfold coordinates
    show (List.range 2).filter _ = [0]
    have h0 : isclose (minL (near0.e 0) ([near1].map fun q => q.e 0)) (maxL (near0.e 0) ([near1].map fun q => q.e 0)) = false := by
      norm_num [isclose, minL, maxL, near0, near1]
    have h1 : isclose (minL (near0.e 1) ([near1].map fun q => q.e 1)) (maxL (near0.e 1) ([near1].map fun q => q.e 1)) = true := by
      norm_num [isclose, minL, maxL, near0, near1, abs_of_pos]
    rw [show List.range 2 = [0, 1] from rfl]
    simp only [List.filter_cons, h0, h1, List.filter_nil]
    simp
  set low : List (Vec ℝ) := [near0.take [0], near1.take [0]] with hlow
  obtain ⟨vor, hvor, hpart⟩ := line_partition (points := low) (fun q hq => by
    simp only [hlow, List.mem_cons, List.not_mem_nil, or_false] at hq
    rcases hq with rfl | rfl <;> rfl) (by
    unfold Sorted1
    simp only [hlow, List.pairwise_cons, List.mem_singleton, forall_eq, List.not_mem_nil, false_imp_iff, implies_true, List.Pairwise.nil, and_true]
    show (0 : ℝ) < (if (0 : ℕ) = 0 then 1 else 1e-9)
    norm_num) (le_refl 2)
  obtain ⟨v0, v1, rfl⟩ := List.length_eq_two.1 (show vor.length = 2 from hpart.length_eq.symm)
  have hp : List.Forall₂ (fun i c => Poly.Inv 1 c ∧ c.C.nr = 0 ∧ ∀ x, c.Mem x ↔ Closest 1 low i x) [0, 1] [v0, v1] := hpart
  rw [List.forall₂_cons, List.forall₂_cons] at hp
  obtain ⟨⟨i0, z0, m0⟩, ⟨i1, z1, m1⟩, -⟩ := hp
  have hinc : Spec.Increasing 2 [0] := ⟨List.pairwise_singleton _ _, fun i hi => by rw [List.mem_singleton.1 hi]; decide⟩
  obtain ⟨c0, hc0, -, hm0⟩ := lift_run (X := none) hinc i0 z0 (fun _ h => by cases h)
  obtain ⟨c1, hc1, -, -⟩ := lift_run (X := none) hinc i1 z1 (fun _ h => by cases h)
  refine ⟨c0, c1, ?_, (hm0 _).2 ⟨(m0 _).2 fun q hq => ?_, fun _ h => by cases h⟩, fun h => ?_⟩
  · unfold constrained_voronoi
    simp only
    rw [if_pos (fun q hq => by rw [List.mem_singleton.1 hq]; rfl), hidx]
    have h1 : ([near0, near1].mapM fun q => np.take q [0]) = .ok low := mapM_ok fun q hq => if_pos fun i hi => by
      rw [List.mem_singleton.1 hi]
      simp only [List.mem_cons, List.not_mem_nil, or_false] at hq
      rcases hq with rfl | rfl <;> exact Nat.zero_lt_two
    rw [h1, Py.ok_bind, show partition V [0] low = voronoi_1d low from if_pos rfl, hvor, Py.ok_bind]
    show [v0, v1].mapM (lift 2 [0] none) = _
    rw [List.mapM_cons, hc0, Py.ok_bind, List.mapM_cons, hc1, Py.ok_bind, List.mapM_nil]
    rfl
  · simp only [hlow, List.mem_cons, List.not_mem_nil, or_false] at hq
    show sqDist 1 _ (near0.take [0]).e ≤ _
    rw [sqDist_one, sqDist_one]
    rcases hq with rfl | rfl
    · exact le_refl _
    · show ((if (0 : ℕ) = 0 then (1 / 2 : ℝ) else 1) - 0) ^ 2 ≤ ((if (0 : ℕ) = 0 then (1 / 2 : ℝ) else 1) - (if (0 : ℕ) = 0 then 1 else 1e-9)) ^ 2
      norm_num
  · have := h near1 (by simp)
    have e : ∀ x y, sqDist 2 x y = (x 0 - y 0) ^ 2 + (x 1 - y 1) ^ 2 := fun x y => by
      unfold sqDist
      rw [Finset.sum_range_succ, Finset.sum_range_one]
    rw [e, e] at this
    norm_num [near0, near1] at this

end Verif.Props
