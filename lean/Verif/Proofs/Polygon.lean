import Verif.Spec.Drawing
import Mathlib.Analysis.Convex.Combination
import Mathlib.Data.List.Sort
import Mathlib.Tactic.Linarith
import Mathlib.Tactic.LinearCombination

/- Convex polygons of the plane. -/
namespace Verif.Polygon
open Spec

theorem orient_rot (a b c : ℝ × ℝ) : orient b c a = orient a b c := by unfold orient; ring

theorem orient_swap (a b c : ℝ × ℝ) : orient a c b = -orient a b c := by unfold orient; ring

theorem orient_self (a c : ℝ × ℝ) : orient a c a = 0 := by unfold orient; ring

theorem orient_self' (a c : ℝ × ℝ) : orient a c c = 0 := by unfold orient; ring

theorem orient_comb (a b : ℝ × ℝ) {s t : ℝ} (h : s + t = 1) (x y : ℝ × ℝ) : orient a b (s • x + t • y) = s * orient a b x + t * orient a b y := by
  unfold orient
  simp only [Prod.fst_add, Prod.smul_fst, Prod.snd_add, Prod.smul_snd, smul_eq_mul]
  have : t = 1 - s := by linarith
  subst this
  ring

theorem enclosed_convex (path : List (ℝ × ℝ)) : Convex ℝ (enclosed path) := by
  intro x hx y hy s t hs ht hst k a b ha hb
  rw [orient_comb a b hst]
  have h1 := mul_nonneg hs (hx k a b ha hb)
  have h2 := mul_nonneg ht (hy k a b ha hb)
  linarith

/-- a point to the left of the edges of a triangle is in its hull -/
theorem mem_triangle {a b c y : ℝ × ℝ} (h : 0 < orient a b c) (h1 : 0 ≤ orient a b y) (h2 : 0 ≤ orient b c y) (h3 : 0 ≤ orient c a y) {S : Set (ℝ × ℝ)}
    (ha : a ∈ S) (hb : b ∈ S) (hc : c ∈ S) : y ∈ convexHull ℝ S := by
  have hsum : orient b c y / orient a b c + orient c a y / orient a b c + orient a b y / orient a b c = 1 := by
    rw [← add_div, ← add_div, div_eq_one_iff_eq h.ne']
    unfold orient; ring
  have hy : (orient b c y / orient a b c) • a + (orient c a y / orient a b c) • b + (orient a b y / orient a b c) • c = y := by
    have e : ∀ z : ℝ, z = z * orient a b c / orient a b c := fun z => (mul_div_cancel_right₀ z h.ne').symm
    ext
    · simp only [Prod.fst_add, Prod.smul_fst, smul_eq_mul]
      rw [e y.1, div_mul_eq_mul_div, div_mul_eq_mul_div, div_mul_eq_mul_div, ← add_div, ← add_div]
      congr 1
      unfold orient; ring
    · simp only [Prod.snd_add, Prod.smul_snd, smul_eq_mul]
      rw [e y.2, div_mul_eq_mul_div, div_mul_eq_mul_div, div_mul_eq_mul_div, ← add_div, ← add_div]
      congr 1
      unfold orient; ring
  rw [← hy]
  have hS := convex_convexHull ℝ S
  have i : ∀ {z}, z ∈ S → z ∈ convexHull ℝ S := fun hz => subset_convexHull ℝ S hz
  have := hS.sum_mem (t := Finset.univ) (w := ![orient b c y / orient a b c, orient c a y / orient a b c, orient a b y / orient a b c]) (z := ![a, b, c])
    (fun k _ => by fin_cases k <;> [exact div_nonneg h2 h.le; exact div_nonneg h3 h.le; exact div_nonneg h1 h.le])
    (by rw [Fin.sum_univ_three]; exact hsum) (fun k _ => by fin_cases k <;> [exact i ha; exact i hb; exact i hc])
  rw [Fin.sum_univ_three] at this
  exact this

/-- a closed path whose corners make left turns encloses their hull -/
theorem enclosed_eq {pts : List (ℝ × ℝ)} {p0 : ℝ × ℝ} (h0 : pts[0]? = some p0) (h3 : 3 ≤ pts.length)
    (turn : ∀ (a b c : ℕ) (p q r : ℝ × ℝ), a < b → b < c → pts[a]? = some p → pts[b]? = some q → pts[c]? = some r → 0 < orient p q r) :
    enclosed (pts ++ [p0]) = convexHull ℝ {q | q ∈ pts} := by
  have hget : ∀ k (h : k < pts.length), pts[k]? = some pts[k] := fun k h => List.getElem?_eq_getElem h
  have hp0 : pts[0]'(by omega) = p0 := by rw [hget 0 (by omega)] at h0; exact Option.some.inj h0
  have hpath : ∀ k (h : k < pts.length), (pts ++ [p0])[k]? = some pts[k] := fun k h => by
    rw [List.getElem?_append_left h, hget]
  have hlast : (pts ++ [p0])[pts.length]? = some p0 := by simp
  apply Set.Subset.antisymm
  · intro y hy
    -- the first corner that has the point on its right, seen from the corner 0
    have hlo : (0 : ℝ) ≤ orient (pts[0]'(by omega)) (pts[1]'(by omega)) y := hy 0 _ _ (hpath 0 _) (hpath 1 _)
    have hhi : 0 ≤ orient (pts[pts.length - 1]'(by omega)) p0 y := hy (pts.length - 1) _ _ (hpath _ (by omega))
      (by rw [Nat.sub_add_cancel (by omega)]; exact hlast)
    obtain ⟨m, hm1, hm2, hm3, hm4⟩ : ∃ m, ∃ (h : m + 1 < pts.length), 1 ≤ m ∧ 0 ≤ orient p0 (pts[m]'(by omega)) y ∧ 0 ≤ orient pts[m + 1] p0 y := by
      classical
      have hex : ∃ M, 2 ≤ M ∧ ∃ h : M < pts.length, 0 ≤ orient pts[M] p0 y := ⟨pts.length - 1, by omega, by omega, hhi⟩
      obtain ⟨M2, hM, hor⟩ := Nat.find_spec hex
      have hmin := fun m (h : m < Nat.find hex) => Nat.find_min hex h
      obtain ⟨m, hm⟩ : ∃ m, Nat.find hex = m + 1 := ⟨Nat.find hex - 1, by omega⟩
      simp only [hm] at M2 hM hor hmin
      refine ⟨m, hM, by omega, ?_, hor⟩
      by_cases h1 : m = 1
      · subst h1
        rw [hp0] at hlo
        exact hlo
      · by_contra hneg
        refine hmin m (by omega) ⟨by omega, by omega, ?_⟩
        have : orient (pts[m]'(by omega)) p0 y = -orient p0 (pts[m]'(by omega)) y := by unfold orient; ring
        rw [this]
        linarith
    have hm5 : 0 ≤ orient (pts[m]'(by omega)) pts[m + 1] y := hy m _ _ (hpath m _) (hpath (m + 1) _)
    exact mem_triangle (turn 0 m (m + 1) _ _ _ (by omega) (by omega) h0 (hget _ (by omega)) (hget _ (by omega))) hm3 hm5 hm4 (List.mem_of_getElem? h0)
      (List.getElem_mem _) (List.getElem_mem _)
  · refine convexHull_min (fun q hq k a b ha hb => ?_) (enclosed_convex _)
    obtain ⟨c, hc, rfl⟩ := List.getElem_of_mem hq
    by_cases hk : k + 1 < pts.length
    · rw [hpath k (by omega)] at ha
      rw [hpath _ hk] at hb
      obtain rfl := Option.some.inj ha
      obtain rfl := Option.some.inj hb
      rcases lt_trichotomy c k with h | rfl | h
      · have := turn c k (k + 1) _ _ _ h (by omega) (hget _ (by omega)) (hget _ (by omega)) (hget _ (by omega))
        rw [orient_rot]; exact this.le
      · rw [orient_self]
      · rcases Nat.lt_or_ge (k + 1) c with h' | h'
        · exact (turn k (k + 1) c _ _ _ (by omega) h' (hget _ (by omega)) (hget _ (by omega)) (hget _ (by omega))).le
        · obtain rfl : c = k + 1 := by omega
          rw [orient_self']
    · by_cases hk' : k < pts.length
      · obtain rfl : k = pts.length - 1 := by omega
        rw [hpath _ hk'] at ha
        rw [Nat.sub_add_cancel (by omega), hlast] at hb
        obtain rfl := Option.some.inj ha
        obtain rfl := Option.some.inj hb
        rcases Nat.eq_zero_or_pos c with rfl | h
        · rw [hp0, orient_self']
        · by_cases h' : c = pts.length - 1
          · subst h'; rw [orient_self]
          · have := turn 0 c (pts.length - 1) _ _ _ h (by omega) h0 (hget _ (by omega)) (hget _ (by omega))
            have e : orient (pts[pts.length - 1]'(by omega)) p0 pts[c] = orient p0 pts[c] (pts[pts.length - 1]'(by omega)) := by unfold orient; ring
            rw [e]; exact this.le
      · rw [List.getElem?_eq_none (by simp; omega)] at hb
        cases hb

/-- points of a line -/
theorem orient_line {o p : ℝ × ℝ} (hne : p ≠ o) {a b c : ℝ × ℝ} (ha : orient o p a = 0) (hb : orient o p b = 0) (hc : orient o p c = 0) : orient a b c = 0 := by
  have key : ∀ {x y : ℝ × ℝ}, orient o p x = 0 → orient o p y = 0 → ∀ z, orient o p z = 0 →
      (p.1 - o.1) * orient x y z = 0 ∧ (p.2 - o.2) * orient x y z = 0 := by
    intro x y hx hy z hz
    unfold orient at *
    constructor
    · linear_combination (z.1 - x.1) * hx - (z.1 - x.1) * hy + (y.1 - x.1) * hz - (y.1 - x.1) * hx
    · linear_combination (z.2 - x.2) * hx - (z.2 - x.2) * hy + (y.2 - x.2) * hz - (y.2 - x.2) * hx
  obtain ⟨k1, k2⟩ := key ha hb c hc
  by_contra h
  apply hne
  have e1 := (mul_eq_zero.1 k1).resolve_right h
  have e2 := (mul_eq_zero.1 k2).resolve_right h
  exact Prod.ext (by linarith) (by linarith)

/-- to the right of `o`, or above it -/
def Pos (o p : ℝ × ℝ) : Prop := o.1 < p.1 ∨ o.1 = p.1 ∧ o.2 < p.2

theorem Pos.trans {o p q r : ℝ × ℝ} (hp : Pos o p) (hq : Pos o q) (hr : Pos o r) (h1 : 0 < orient o p q) (h2 : 0 < orient o q r) : 0 < orient o p r := by
  have e : orient o p r * (q.1 - o.1) = orient o p q * (r.1 - o.1) + orient o q r * (p.1 - o.1) := by unfold orient; ring
  rcases hq with hq | ⟨hq, hq'⟩
  · have hp0 : 0 ≤ p.1 - o.1 := by rcases hp with h | ⟨h, -⟩ <;> linarith
    have hr0 : 0 ≤ r.1 - o.1 := by rcases hr with h | ⟨h, -⟩ <;> linarith
    have hp1 : 0 < r.1 - o.1 ∨ 0 < p.1 - o.1 := by
      by_contra hc
      push Not at hc
      have z : p.1 - o.1 = 0 := le_antisymm hc.2 hp0
      rcases hp with h | ⟨-, h⟩
      · linarith
      · have : orient o p q = -((p.2 - o.2) * (q.1 - o.1)) := by unfold orient; rw [z]; ring
        have : 0 < (p.2 - o.2) * (q.1 - o.1) := mul_pos (by linarith) (by linarith)
        linarith
    have hpos : 0 < orient o p r * (q.1 - o.1) := by
      rw [e]
      rcases hp1 with h | h
      · have a1 := mul_pos h1 h
        have a2 := mul_nonneg h2.le hp0
        linarith
      · have a1 := mul_pos h2 h
        have a2 := mul_nonneg h1.le hr0
        linarith
    exact (pos_iff_pos_of_mul_pos hpos).2 (by linarith)
  · have : orient o q r = -((q.2 - o.2) * (r.1 - o.1)) := by unfold orient; rw [← hq]; ring
    have hr0 : 0 ≤ r.1 - o.1 := by rcases hr with h | ⟨h, -⟩ <;> linarith
    have := mul_nonneg (show 0 ≤ q.2 - o.2 by linarith) hr0
    linarith

/-- two points in the same direction: one is between `o` and the other -/
theorem Pos.between {o p q : ℝ × ℝ} (hp : Pos o p) (hq : Pos o q) (h : orient o p q = 0) : p ∈ segment ℝ o q ∨ q ∈ segment ℝ o p := by
  obtain ⟨t, ht, e1, e2⟩ : ∃ t : ℝ, 0 < t ∧ p.1 - o.1 = t * (q.1 - o.1) ∧ p.2 - o.2 = t * (q.2 - o.2) := by
    unfold orient at h
    rcases hq with hq | ⟨hq, hq'⟩
    · have hq0 : q.1 - o.1 ≠ 0 := by intro h; linarith
      have hp1 : 0 < p.1 - o.1 := by
        rcases hp with h' | ⟨h', h''⟩
        · linarith
        · have z : p.1 - o.1 = 0 := by linarith
          rw [z, zero_mul, zero_sub, neg_eq_zero] at h
          rcases mul_eq_zero.1 h with h | h
          · linarith
          · exact absurd h hq0
      refine ⟨(p.1 - o.1) / (q.1 - o.1), div_pos hp1 (by linarith), by field_simp, ?_⟩
      rw [div_mul_eq_mul_div, eq_div_iff hq0]
      linarith
    · have hq0 : q.2 - o.2 ≠ 0 := by intro h; linarith
      have z : q.1 - o.1 = 0 := by linarith
      rw [z, mul_zero, sub_zero] at h
      have hp1 : p.1 - o.1 = 0 := (mul_eq_zero.1 h).resolve_right hq0
      have hp2 : 0 < p.2 - o.2 := by rcases hp with h' | ⟨h', h''⟩ <;> linarith
      refine ⟨(p.2 - o.2) / (q.2 - o.2), div_pos hp2 (by linarith), by rw [hp1, z, mul_zero], by field_simp⟩
  rcases le_total t 1 with h1 | h1
  · left
    refine ⟨1 - t, t, by linarith, ht.le, by ring, ?_⟩
    ext
    · simp only [Prod.fst_add, Prod.smul_fst, smul_eq_mul]; linarith
    · simp only [Prod.snd_add, Prod.smul_snd, smul_eq_mul]; linarith
  · right
    have hi : 1 / t ≤ 1 := by rw [div_le_one ht]; exact h1
    refine ⟨1 - 1 / t, 1 / t, by linarith, by positivity, by ring, ?_⟩
    ext
    · simp only [Prod.fst_add, Prod.smul_fst, smul_eq_mul]
      have : q.1 - o.1 = 1 / t * (p.1 - o.1) := by rw [e1]; field_simp
      linarith
    · simp only [Prod.snd_add, Prod.smul_snd, smul_eq_mul]
      have : q.2 - o.2 = 1 / t * (p.2 - o.2) := by rw [e2]; field_simp
      linarith

/-- the corners of the hull of finitely many points that are not on a line, counterclockwise -/
theorem exists_ccw (S : Finset (ℝ × ℝ)) (hS : ∃ a ∈ S, ∃ b ∈ S, ∃ c ∈ S, orient a b c ≠ 0) :
    ∃ l : List (ℝ × ℝ), (∀ p ∈ l, p ∈ S) ∧ 3 ≤ l.length ∧
      (∀ (a b c : ℕ) (p q r : ℝ × ℝ), a < b → b < c → l[a]? = some p → l[b]? = some q → l[c]? = some r → 0 < orient p q r) ∧
      ∀ p ∈ S, p ∈ convexHull ℝ {q | q ∈ l} := by
  classical
  obtain ⟨E, hE, hmin⟩ := Finset.exists_min_image (S.powerset.filter fun E : Finset (ℝ × ℝ) => (S : Set (ℝ × ℝ)) ⊆ convexHull ℝ (E : Set (ℝ × ℝ))) Finset.card
    ⟨S, by rw [Finset.mem_filter, Finset.mem_powerset]; exact ⟨Finset.Subset.refl _, subset_convexHull ℝ _⟩⟩
  rw [Finset.mem_filter, Finset.mem_powerset] at hE
  obtain ⟨hES, hSE⟩ := hE
  -- no point of `E` is in the hull of the others
  have hext : ∀ e ∈ E, e ∉ convexHull ℝ ((E.erase e : Finset (ℝ × ℝ)) : Set (ℝ × ℝ)) := by
    intro e he hin
    have hsub : (S : Set (ℝ × ℝ)) ⊆ convexHull ℝ ((E.erase e : Finset (ℝ × ℝ)) : Set (ℝ × ℝ)) := by
      refine hSE.trans (convexHull_min (fun x hx => ?_) (convex_convexHull ℝ _))
      by_cases hxe : x = e
      · rw [hxe]; exact hin
      · exact subset_convexHull ℝ _ (Finset.mem_coe.2 (Finset.mem_erase.2 ⟨hxe, hx⟩))
    have := hmin _ (by rw [Finset.mem_filter, Finset.mem_powerset]; exact ⟨(Finset.erase_subset _ _).trans hES, hsub⟩)
    have := Finset.card_erase_lt_of_mem he
    omega
  have hEne : E.Nonempty := by
    obtain ⟨a, ha, -⟩ := hS
    rw [Finset.nonempty_iff_ne_empty]
    rintro rfl
    have := hSE ha
    simp at this
  obtain ⟨o, ho, hlex⟩ := Finset.exists_min_image E toLex hEne
  have hpos : ∀ p ∈ E.erase o, Pos o p := by
    intro p hp
    obtain ⟨hpo, hpE⟩ := Finset.mem_erase.1 hp
    have := hlex p hpE
    rw [Prod.Lex.toLex_le_toLex] at this
    rcases this with h | ⟨h1, h2⟩
    · exact Or.inl h
    · rcases h2.lt_or_eq with h2 | h2
      · exact Or.inr ⟨h1, h2⟩
      · exact absurd (Prod.ext h1 h2).symm hpo
  have hne0 : ∀ p ∈ E.erase o, ∀ q ∈ E.erase o, p ≠ q → orient o p q ≠ 0 := by
    intro p hp q hq hpq h
    have hsub : ∀ {x y}, x ∈ E.erase o → y ∈ E.erase o → x ≠ y → x ∉ segment ℝ o y := by
      intro x y hx hy hxy hseg
      refine hext x (Finset.mem_of_mem_erase hx) (segment_subset_convexHull ?_ ?_ hseg)
      · exact Finset.mem_coe.2 (Finset.mem_erase.2 ⟨(Finset.ne_of_mem_erase hx).symm, ho⟩)
      · exact Finset.mem_coe.2 (Finset.mem_erase.2 ⟨hxy.symm, Finset.mem_of_mem_erase hy⟩)
    rcases (hpos p hp).between (hpos q hq) h with h | h
    · exact hsub hp hq hpq h
    · exact hsub hq hp hpq.symm h
  -- the other points, sorted
  let r : {p // p ∈ E.erase o} → {p // p ∈ E.erase o} → Prop := fun p q => 0 ≤ orient o p q
  haveI : Std.Total r := ⟨fun p q => by
    show 0 ≤ orient o p q ∨ 0 ≤ orient o q p
    rw [orient_swap o p q]
    rcases le_total 0 (orient o p q) with h | h
    · exact Or.inl h
    · exact Or.inr (by linarith)⟩
  haveI : IsTrans _ r := ⟨fun p q s h1 h2 => by
    by_cases e1 : p = q
    · rw [e1]; exact h2
    by_cases e2 : q = s
    · rw [← e2]; exact h1
    have a1 : 0 < orient o p q := lt_of_le_of_ne h1 (Ne.symm (hne0 p p.2 q q.2 fun h => e1 (Subtype.ext h)))
    have a2 : 0 < orient o q s := lt_of_le_of_ne h2 (Ne.symm (hne0 q q.2 s s.2 fun h => e2 (Subtype.ext h)))
    exact ((hpos p p.2).trans (hpos q q.2) (hpos s s.2) a1 a2).le⟩
  set l0 := (E.erase o).attach.toList.insertionSort r with hl0
  have hsort : l0.Pairwise r := List.pairwise_insertionSort r _
  have hnod : l0.Nodup := (List.perm_insertionSort r _).nodup_iff.2 (Finset.nodup_toList _)
  have hmem0 : ∀ p : {p // p ∈ E.erase o}, p ∈ l0 := fun p => (List.perm_insertionSort r _).mem_iff.2 (by simp)
  set l := l0.map Subtype.val with hl
  have hmem : ∀ p, p ∈ l ↔ p ∈ E.erase o := fun p => by
    rw [hl, List.mem_map]
    exact ⟨fun ⟨q, _, e⟩ => e ▸ q.2, fun h => ⟨⟨p, h⟩, hmem0 _, rfl⟩⟩
  have hpair : l.Pairwise fun p q => 0 < orient o p q := by
    rw [hl, List.pairwise_map]
    refine (hsort.and hnod).imp fun {p q} h => ?_
    exact lt_of_le_of_ne h.1 (Ne.symm (hne0 p p.2 q q.2 fun e => h.2 (Subtype.ext e)))
  have hp' : ∀ (a b : ℕ) (p q : ℝ × ℝ), a < b → l[a]? = some p → l[b]? = some q → 0 < orient o p q := by
    intro a b p q hab ha hb
    obtain ⟨ha', rfl⟩ := List.getElem?_eq_some_iff.1 ha
    obtain ⟨hb', rfl⟩ := List.getElem?_eq_some_iff.1 hb
    exact List.pairwise_iff_getElem.1 hpair a b ha' hb' hab
  have hEl : ∀ p, p ∈ o :: l ↔ p ∈ E := fun p => by
    rw [List.mem_cons, hmem, Finset.mem_erase]
    constructor
    · rintro (rfl | h)
      · exact ho
      · exact h.2
    · intro h
      by_cases e : p = o
      · exact Or.inl e
      · exact Or.inr ⟨e, h⟩
  have hhull : ∀ p ∈ S, p ∈ convexHull ℝ {q | q ∈ o :: l} := fun p hp => by
    rw [show {q | q ∈ o :: l} = (E : Set (ℝ × ℝ)) from Set.ext hEl]
    exact hSE hp
  refine ⟨o :: l, fun p hp => hES ((hEl p).1 hp), ?_, ?_, hhull⟩
  · -- not all the points are on a line
    by_contra hlen
    obtain ⟨a, ha, b, hb, c, hc, habc⟩ := hS
    have line : ∀ p, p ≠ o → (∀ q ∈ l, q = p) → False := by
      intro p hpo hall
      have hcv : Convex ℝ {y : ℝ × ℝ | orient o p y = 0} := by
        intro x hx y hy s t _ _ hst
        show orient o p (s • x + t • y) = 0
        rw [orient_comb o p hst, show orient o p x = 0 from hx, show orient o p y = 0 from hy]
        ring
      have hsub : ∀ y ∈ S, orient o p y = 0 := fun y hy => by
        refine convexHull_min (fun q hq => ?_) hcv (hhull y hy)
        rcases List.mem_cons.1 hq with rfl | hq
        · exact orient_self _ _
        · rw [hall q hq]; exact orient_self' _ _
      exact habc (orient_line hpo (hsub a ha) (hsub b hb) (hsub c hc))
    match hll : l with
    | [] => exact line (o.1 + 1, o.2) (fun h => by have := congrArg Prod.fst h; simp at this) (fun q hq => by cases hq)
    | [p] =>
      refine line p ?_ fun q hq => List.mem_singleton.1 hq
      exact Finset.ne_of_mem_erase ((hmem p).1 (by simp))
    | _ :: _ :: _ => simp at hlen
  · intro a b c p q s hab hbc ha hb hc
    obtain ⟨b, rfl⟩ : ∃ b', b = b' + 1 := ⟨b - 1, by omega⟩
    obtain ⟨c, rfl⟩ : ∃ c', c = c' + 1 := ⟨c - 1, by omega⟩
    rw [List.getElem?_cons_succ] at hb hc
    have h1 := hp' b c q s (by omega) hb hc
    match a with
    | 0 =>
      rw [List.getElem?_cons_zero] at ha
      rw [← Option.some.inj ha]
      exact h1
    | a + 1 =>
      rw [List.getElem?_cons_succ] at ha
      have h2 := hp' a b p q (by omega) ha hb
      have h3 := hp' a c p s (by omega) ha hc
      by_contra hneg
      have mp := (hmem p).1 (List.mem_of_getElem? ha)
      have mq := (hmem q).1 (List.mem_of_getElem? hb)
      have ms := (hmem s).1 (List.mem_of_getElem? hc)
      refine hext q (Finset.mem_of_mem_erase mq) (mem_triangle h3 h2.le ?_ ?_ ?_ ?_ ?_)
      · rw [orient_swap]; linarith
      · have : orient s o q = orient o q s := by unfold orient; ring
        rw [this]; exact h1.le
      · exact Finset.mem_coe.2 (Finset.mem_erase.2 ⟨(Finset.ne_of_mem_erase mq).symm, ho⟩)
      · refine Finset.mem_coe.2 (Finset.mem_erase.2 ⟨?_, Finset.mem_of_mem_erase mp⟩)
        rintro rfl
        rw [orient_self'] at h2; exact lt_irrefl _ h2
      · refine Finset.mem_coe.2 (Finset.mem_erase.2 ⟨?_, Finset.mem_of_mem_erase ms⟩)
        rintro rfl
        rw [orient_self'] at h1; exact lt_irrefl _ h1

end Verif.Polygon
