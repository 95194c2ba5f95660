import Verif.Proofs.Vertices
import Verif.Props.PolyhedronRedundancy

/- Helper lemmas for the vertices of intervals. -/
namespace Verif
open Finset
namespace IntervalEnds

/-- the inequalities `a i x ≤ b i`, the ones that are kept and what is known about them -/
structure Kept (m : ℕ) (a b : ℕ → ℝ) (tol : ℝ) (r : List ℕ) (y0 : ℝ) : Prop where
  pos : 0 < tol
  nodup : r.Nodup
  lt : ∀ i ∈ r, i < m
  pt : ∀ i < m, a i * y0 ≤ b i
  keep : ∀ i ∈ r, ∃ x, (∀ j ∈ r, j ≠ i → a j * x ≤ b j) ∧ b i + tol ≤ a i * x ∧ ∀ j < m, i < j → a j * x ≤ b j
  drop : ∀ i < m, i ∉ r → ∀ x, (∀ j ∈ r, a j * x ≤ b j) → (∀ j < m, i < j → a j * x ≤ b j) → a i * x < b i + tol
  bdd : ∃ M, ∀ x, (∀ i < m, a i * x ≤ b i) → |x| ≤ M

variable {m : ℕ} {a b : ℕ → ℝ} {tol s : ℝ} {r : List ℕ} {y0 : ℝ}

theorem Kept.ne (h : Kept m a b tol r y0) {i : ℕ} (hi : i ∈ r) : a i ≠ 0 := by
  intro h0
  obtain ⟨x, -, hx, -⟩ := h.keep i hi
  have := h.pt i (h.lt i hi)
  have := h.pos
  rw [h0, zero_mul] at *
  linarith

/-- signs -/
def Sign (s : ℝ) : Prop := s = 1 ∨ s = -1

theorem Sign.sq {s : ℝ} (h : Sign s) : s * s = 1 := by rcases h with rfl | rfl <;> norm_num
theorem Sign.neg {s : ℝ} (h : Sign s) : Sign (-s) := by
  rcases h with rfl | rfl
  · right; rfl
  · left; norm_num

/-- at most one inequality is kept on each side -/
theorem Kept.unique (h : Kept m a b tol r y0) {s : ℝ} (hs : Sign s) {i j : ℕ} (hi : i ∈ r) (hj : j ∈ r) (pi : 0 < s * a i) (pj : 0 < s * a j) : i = j := by
  by_contra hne
  obtain ⟨x, x1, x2, -⟩ := h.keep i hi
  obtain ⟨y, z1, z2, -⟩ := h.keep j hj
  have x3 := x1 j hj (Ne.symm hne)
  have z3 := z1 i hi hne
  have ht := h.pos
  have e1 : 0 < a i * (x - y) := by rw [mul_sub]; linarith
  have e2 : 0 < a j * (y - x) := by rw [mul_sub]; linarith
  have e3 : 0 < s * (x - y) := by
    have : s * a i * (s * (x - y)) = (s * s) * (a i * (x - y)) := by ring
    rw [hs.sq, one_mul] at this
    exact (pos_iff_pos_of_mul_pos (by rw [this]; exact e1)).1 pi
  have e4 : 0 < s * (y - x) := by
    have : s * a j * (s * (y - x)) = (s * s) * (a j * (y - x)) := by ring
    rw [hs.sq, one_mul] at this
    exact (pos_iff_pos_of_mul_pos (by rw [this]; exact e2)).1 pj
  linarith [show s * (x - y) + s * (y - x) = 0 by ring]

/-- going from `y0` away from an inequality does not violate it -/
theorem away (hs : Sign s) {c d x y : ℝ} (hy : c * y ≤ d) (hc : s * c ≤ 0) (hx : s * y ≤ s * x) : c * x ≤ d := by
  have e : (s * c) * (s * (x - y)) = c * (x - y) := by
    rw [show (s * c) * (s * (x - y)) = (s * s) * (c * (x - y)) by ring, hs.sq, one_mul]
  have := mul_nonpos_of_nonpos_of_nonneg hc (show 0 ≤ s * (x - y) by rw [mul_sub]; linarith)
  rw [e, mul_sub] at this
  linarith

/-- going back from `x` does not violate an inequality -/
theorem back (hs : Sign s) {c d x y : ℝ} (hy : c * x ≤ d) (hc : 0 ≤ s * c) (hx : s * y ≤ s * x) : c * y ≤ d := by
  refine away hs.neg hy (by linarith) ?_
  linarith

/-- one inequality is kept on each side -/
theorem Kept.exists (h : Kept m a b tol r y0) {s : ℝ} (hs : Sign s) : ∃ i ∈ r, 0 < s * a i := by
  by_contra hno
  push Not at hno
  -- the positions of the other inequalities on this side
  by_cases hex : ∃ i < m, 0 < s * a i
  · -- the last one
    have hfin : ((Finset.range m).filter fun i => 0 < s * a i).Nonempty := by
      obtain ⟨i, hi, hp⟩ := hex
      exact ⟨i, Finset.mem_filter.2 ⟨Finset.mem_range.2 hi, hp⟩⟩
    set i := ((Finset.range m).filter fun i => 0 < s * a i).max' hfin with hi
    have him := Finset.max'_mem _ hfin
    rw [← hi, Finset.mem_filter, Finset.mem_range] at him
    obtain ⟨him, hip⟩ := him
    have hir : i ∉ r := fun hr => absurd (hno i hr) (not_le.2 hip)
    set t := |b i + tol - a i * y0| / (s * a i) with ht
    have ht0 : 0 ≤ t := div_nonneg (abs_nonneg _) hip.le
    have hx : s * y0 ≤ s * (y0 + s * t) := by
      rw [mul_add, ← mul_assoc, hs.sq]; linarith
    have := h.drop i him hir (y0 + s * t) (fun j hj => away hs (h.pt j (h.lt j hj)) (hno j hj) hx) (fun j hj hij => by
      refine away hs (h.pt j hj) ?_ hx
      by_contra hpos
      push Not at hpos
      have := Finset.le_max' ((Finset.range m).filter fun i => 0 < s * a i) j (Finset.mem_filter.2 ⟨Finset.mem_range.2 hj, hpos⟩)
      omega)
    have e : a i * (s * t) = |b i + tol - a i * y0| := by
      rw [ht, ← mul_assoc, mul_comm (a i) s, mul_div_cancel₀ _ hip.ne']
    rw [mul_add, e] at this
    have := le_abs_self (b i + tol - a i * y0)
    linarith
  · push Not at hex
    obtain ⟨M, hM⟩ := h.bdd
    have hx : s * y0 ≤ s * (y0 + s * (|M| + |y0| + 1)) := by
      rw [mul_add, ← mul_assoc, hs.sq]; linarith [abs_nonneg M, abs_nonneg y0]
    have := hM (y0 + s * (|M| + |y0| + 1)) fun i hi => away hs (h.pt i hi) (hex i hi) hx
    have h1 := le_abs_self M
    have h2 := abs_sub_abs_le_abs_sub (s * (|M| + |y0| + 1)) (-y0)
    rw [sub_neg_eq_add, abs_mul, abs_neg, show |s| = 1 by rcases hs with rfl | rfl <;> norm_num, one_mul,
      abs_of_nonneg (show 0 ≤ |M| + |y0| + 1 by positivity), add_comm _ y0] at h2
    linarith

theorem pair_list {r : List ℕ} (hr : r.Nodup) {i j : ℕ} (hi : i ∈ r) (hj : j ∈ r) (hij : i ≠ j) (h : ∀ k ∈ r, k = i ∨ k = j) :
    r = [i, j] ∨ r = [j, i] := by
  have hp : r.Perm [i, j] := by
    rw [List.perm_ext_iff_of_nodup hr (by simpa using hij)]
    intro k
    constructor
    · intro hk; simpa using h k hk
    · intro hk
      rcases List.mem_pair.1 hk with rfl | rfl
      · exact hi
      · exact hj
  have hl := hp.length_eq
  match r, hl with
  | [x, y], _ =>
    have h1 := h x (by simp)
    have h2 := h y (by simp)
    have h3 : x ≠ y := by simpa using hr
    rcases h1 with rfl | rfl <;> rcases h2 with rfl | rfl
    · exact absurd rfl h3
    · left; rfl
    · right; rfl
    · exact absurd rfl h3

/-- exactly two inequalities are kept, an upper and a lower bound -/
theorem Kept.two (h : Kept m a b tol r y0) : ∃ i j, 0 < a i ∧ a j < 0 ∧ i ∈ r ∧ j ∈ r ∧ (r = [i, j] ∨ r = [j, i]) := by
  obtain ⟨i, hi, pi⟩ := h.exists (s := 1) (Or.inl rfl)
  obtain ⟨j, hj, pj⟩ := h.exists (s := -1) (Or.inr rfl)
  have pi' : 0 < a i := by linarith
  have pj' : a j < 0 := by linarith
  refine ⟨i, j, pi', pj', hi, hj, pair_list h.nodup hi hj (by rintro rfl; linarith) fun k hk => ?_⟩
  rcases lt_or_gt_of_ne (h.ne hk) with hneg | hpos
  · right; exact h.unique (s := -1) (Or.inr rfl) hk hj (by linarith) pj
  · left; exact h.unique (s := 1) (Or.inl rfl) hk hi (by linarith) pi

/-- the end point given by a kept inequality is on the right side of `y0` -/
theorem Kept.side (h : Kept m a b tol r y0) {s : ℝ} (hs : Sign s) {k : ℕ} (hk : k ∈ r) (pk : 0 < s * a k) :
    s * y0 ≤ s * (b k / a k) ∧ a k * (b k / a k) = b k := by
  have hne := h.ne hk
  have e : a k * (b k / a k) = b k := by rw [mul_comm, div_mul_cancel₀ _ hne]
  refine ⟨?_, e⟩
  have h1 : 0 ≤ a k * (b k / a k - y0) := by rw [mul_sub, e]; have := h.pt k (h.lt k hk); linarith
  have h2 : s * a k * (s * (b k / a k - y0)) = a k * (b k / a k - y0) := by
    rw [show s * a k * (s * (b k / a k - y0)) = (s * s) * (a k * (b k / a k - y0)) by ring, hs.sq, one_mul]
  rw [← h2] at h1
  have := (mul_nonneg_iff_of_pos_left pk).1 h1
  linarith

theorem Kept.rows (h : Kept m a b tol r y0) {s : ℝ} (hs : Sign s) {k : ℕ} (hk : k ∈ r) (pk : 0 < s * a k) {x : ℝ} (h1 : s * y0 ≤ s * x)
    (h2 : s * x ≤ s * (b k / a k)) : ∀ j ∈ r, a j * x ≤ b j := by
  intro j hj
  rcases le_or_gt (s * a j) 0 with hn | hp
  · exact away hs (h.pt j (h.lt j hj)) hn h1
  · obtain rfl := h.unique hs hj hk hp pk
    exact back hs (h.side hs hk pk).2.le pk.le h2

/-- without small gaps the end point satisfies all inequalities -/
theorem Kept.exact (h : Kept m a b tol r y0) {s : ℝ} (hs : Sign s) {k : ℕ} (hk : k ∈ r) (pk : 0 < s * a k)
    (hgap : ∀ i < m, (∃ x, a k * x ≤ b k ∧ b i < a i * x) → ∃ x, a k * x ≤ b k ∧ b i + tol ≤ a i * x) : ∀ i < m, a i * (b k / a k) ≤ b i := by
  obtain ⟨hside, he⟩ := h.side hs hk pk
  have hr := h.rows hs hk pk hside le_rfl
  have key : ∀ d, ∀ i < m, m ≤ i + d → a i * (b k / a k) ≤ b i := by
    intro d
    induction d with
    | zero => intro i hi hd; omega
    | succ d ih =>
      intro i hi hd
      by_contra hv
      push Not at hv
      have hir : i ∉ r := fun hir => absurd (hr i hir) (not_le.2 hv)
      have := h.drop i hi hir (b k / a k) hr (fun j hj hij => ih j hj (by omega))
      obtain ⟨x, x1, x2⟩ := hgap i hi ⟨_, he.le, hv⟩
      have hpos : 0 < s * a i := by
        by_contra hn
        push Not at hn
        exact absurd (away hs (h.pt i hi) hn hside) (not_le.2 hv)
      have hx : s * x ≤ s * (b k / a k) := by
        by_contra hc
        push Not at hc
        have e : s * a k * (s * (x - b k / a k)) = a k * x - a k * (b k / a k) := by
          rw [show s * a k * (s * (x - b k / a k)) = (s * s) * (a k * x - a k * (b k / a k)) by ring, hs.sq, one_mul]
        have := mul_pos pk (show 0 < s * (x - b k / a k) by rw [mul_sub]; linarith)
        rw [e, he] at this
        linarith
      have := back hs (le_refl (a i * (b k / a k))) hpos.le hx
      linarith
  exact fun i hi => key m i hi (by omega)

/-- the end point is close to a point that satisfies all inequalities -/
theorem Kept.close (h : Kept m a b tol r y0) {s : ℝ} (hs : Sign s) {k : ℕ} (hk : k ∈ r) (pk : 0 < s * a k) :
    ∃ x, (∀ i < m, a i * x ≤ b i) ∧ s * x ≤ s * (b k / a k) ∧ s * (b k / a k) - tol * ∑ i ∈ range m, 1 / |a i| ≤ s * x := by
  obtain ⟨hside, he⟩ := h.side hs hk pk
  have key : ∀ d ≤ m, ∃ x, (∀ i < m, m ≤ i + d → a i * x ≤ b i) ∧ s * y0 ≤ s * x ∧ s * x ≤ s * (b k / a k) ∧
      s * (b k / a k) - tol * ∑ i ∈ (range m).filter (m ≤ · + d), 1 / |a i| ≤ s * x := by
    intro d
    induction d with
    | zero =>
      intro _
      refine ⟨b k / a k, fun i hi hd => by omega, hside, le_rfl, ?_⟩
      have : 0 ≤ tol * ∑ i ∈ (range m).filter (m ≤ · + 0), 1 / |a i| := mul_nonneg h.pos.le (Finset.sum_nonneg fun _ _ => by positivity)
      linarith
    | succ d ih =>
      intro hd
      obtain ⟨x, x1, x2, x3, x4⟩ := ih (by omega)
      set i := m - (d + 1) with hi
      have him : i < m := by omega
      have hsum : ∑ j ∈ (range m).filter (m ≤ · + (d + 1)), 1 / |a j| = ∑ j ∈ (range m).filter (m ≤ · + d), 1 / |a j| + 1 / |a i| := by
        have : (range m).filter (m ≤ · + (d + 1)) = insert i ((range m).filter (m ≤ · + d)) := by
          ext j
          simp only [Finset.mem_filter, Finset.mem_range, Finset.mem_insert]
          omega
        rw [this, Finset.sum_insert (by simp only [Finset.mem_filter, Finset.mem_range]; omega), add_comm]
      have hpos : 0 ≤ tol * (1 / |a i|) := mul_nonneg h.pos.le (by positivity)
      have hall : ∀ j < m, m ≤ j + (d + 1) → j = i ∨ m ≤ j + d := fun j _ h2 => by omega
      by_cases hv : a i * x ≤ b i
      · refine ⟨x, fun j hj hd' => ?_, x2, x3, ?_⟩
        · rcases hall j hj hd' with rfl | h'
          · exact hv
          · exact x1 j hj h'
        · rw [hsum, mul_add]; linarith
      · push Not at hv
        have hr := h.rows hs hk pk x2 x3
        have hir : i ∉ r := fun hir => absurd (hr i hir) (not_le.2 hv)
        have hdrop := h.drop i him hir x hr (fun j hj hij => x1 j hj (by omega))
        have hp : 0 < s * a i := by
          by_contra hn
          push Not at hn
          exact absurd (away hs (h.pt i him) hn x2) (not_le.2 hv)
        have hne : a i ≠ 0 := fun h0 => by rw [h0, mul_zero] at hp; exact lt_irrefl _ hp
        have e1 : a i * (b i / a i) = b i := by rw [mul_comm, div_mul_cancel₀ _ hne]
        have habs : |a i| = s * a i := by
          rcases hs with rfl | rfl
          · rw [abs_of_pos (by linarith)]; ring
          · rw [abs_of_neg (by linarith)]; ring
        -- differences in units of `a i`
        have unit : ∀ z, s * z = (a i * z) / |a i| := by
          intro z
          rw [habs, eq_div_iff hp.ne', show s * z * (s * a i) = (s * s) * (a i * z) by ring, hs.sq, one_mul]
        have habs0 : 0 < |a i| := abs_pos.2 hne
        have g1 : s * y0 ≤ s * (b i / a i) := by
          rw [unit, unit, e1]
          exact div_le_div_of_nonneg_right (h.pt i him) habs0.le
        have g2 : s * (b i / a i) ≤ s * x := by
          rw [unit, unit x, e1]
          exact div_le_div_of_nonneg_right hv.le habs0.le
        have g3 : s * x - tol * (1 / |a i|) ≤ s * (b i / a i) := by
          rw [unit, unit (b i / a i), e1, ← mul_div_assoc, mul_one, ← sub_div]
          exact div_le_div_of_nonneg_right (by linarith) habs0.le
        refine ⟨b i / a i, fun j hj hd' => ?_, g1, g2.trans x3, ?_⟩
        · rcases hall j hj hd' with rfl | h'
          · exact e1.le
          · rcases le_or_gt (s * a j) 0 with hn | hp'
            · exact away hs (h.pt j hj) hn g1
            · exact back hs (x1 j hj h') hp'.le g2
        · rw [hsum, mul_add]; linarith
  obtain ⟨x, x1, -, x3, x4⟩ := key m le_rfl
  refine ⟨x, fun i hi => x1 i hi (by omega), x3, ?_⟩
  rwa [Finset.filter_true_of_mem (fun i _ => by omega)] at x4

end IntervalEnds

namespace Poly
open IntervalEnds

/-- the run of the computation of the vertices of an interval -/
theorem interval_run {L : Lib} (hL : LibSpec L) (Q : Qhull) {E : Mat ℝ} {f : Vec ℝ} (c : Vec ℝ) (hE : E.nc = 1) (hf : f.n = E.nr) {y0 : ℕ → ℝ} (hy0 : InRows E f y0)
    (hn : ∑ j ∈ range E.nc, y0 j ^ 2 < 1 / (1e-7 : ℝ) ^ 2 - 1) (hb : ∃ M, ∀ y, InRows E f y → ∀ l < E.nc, |y l| ≤ M) :
    ∃ r i j, Kept E.nr (fun i => E.e i 0) f.e 1e-7 r (y0 0) ∧ i ∈ r ∧ j ∈ r ∧ 0 < E.e i 0 ∧ E.e j 0 < 0 ∧
      (innerVertices L Q E f c = .ok [⟨1, fun _ => f.e i / E.e i 0⟩, ⟨1, fun _ => f.e j / E.e j 0⟩] ∨
        innerVertices L Q E f c = .ok [⟨1, fun _ => f.e j / E.e j 0⟩, ⟨1, fun _ => f.e i / E.e i 0⟩]) := by
  set p := fresh E f (Mat.zeros 0 E.nc) (Vec.zeros 0) with hp
  have hinv : p.Inv 1 := ⟨hE, hf, hE, rfl⟩
  have hv : ∀ i (x : ℕ → ℝ), Spec.rowVal E i x = E.e i 0 * x 0 := fun i x => by simp [Spec.rowVal, hE]
  have hq : ∀ x, Spec.EqHold p.C p.d x := fun x i hi => absurd hi (Nat.not_lt_zero i)
  have hrows : 0 < E.nr := by
    by_contra h0
    obtain ⟨M, hM⟩ := hb
    have h1 := hM (fun _ => |M| + 1) (fun i hi => absurd hi (by omega)) 0 (by omega)
    rw [abs_of_pos (by positivity)] at h1
    linarith [le_abs_self M]
  obtain ⟨r, -, h1, h2, h3, h4, h5⟩ := Props.redundancy_run hL hinv (.inl hrows) (fun e h => by cases h) ⟨y0, ⟨hy0, hq _⟩, by rw [← hE]; exact hn⟩ (.inl rfl)
    (tol := 1e-7) (by norm_num)
  have hk : Kept E.nr (fun i => E.e i 0) f.e 1e-7 r (y0 0) := by
    refine ⟨by norm_num, h2.nodup List.nodup_range, h3, fun i hi => by rw [← hv]; exact hy0 i hi, fun i hi => ?_, fun i hi hir x hx hx' => ?_, ?_⟩
    · obtain ⟨x, -, k1, k2, k3⟩ := h4 i hi
      refine ⟨x 0, fun j hj hij => ?_, ?_, fun j hj hij => ?_⟩
      · rw [← hv]; exact k1 j hj hij
      · rw [← hv]; exact k3
      · rw [← hv]; exact k2 j hj hij
    · have := h5 i hi hir (fun _ => x) (hq _) (fun j hj => by rw [show Spec.rowVal p.A j _ = _ from hv j _]; exact hx j hj)
        (fun j hj hij => by rw [show Spec.rowVal p.A j _ = _ from hv j _]; exact hx' j hj hij)
      rw [show Spec.rowVal p.A i _ = _ from hv i _] at this
      exact this
    · obtain ⟨M, hM⟩ := hb
      exact ⟨M, fun x hx => hM (fun _ => x) (fun i hi => by rw [hv]; exact hx i hi) 0 (by omega)⟩
  obtain ⟨i, j, pi, pj, hi, hj, hr⟩ := hk.two
  have k1 : init E (.d1 f) = .ok p := init_eq_ok.2 ⟨f, rfl, hf, Or.inl ⟨rfl, rfl, rfl⟩⟩
  have k2 : runOn p (remove_redundant_inequalities L) = .ok { p with _empty := some false, A := p.A.rows r, b := p.b.take r } := by
    unfold runOn
    rw [h1 rfl]
  refine ⟨r, i, j, hk, hi, hj, pi, pj, ?_⟩
  unfold innerVertices intervalVertices
  rw [if_pos hE, k1, Py.ok_bind, k2, Py.ok_bind]
  rcases hr with rfl | rfl
  · left; rfl
  · right; rfl

/-- the extreme points of an interval described without small gaps -/
theorem interval_ok {L : Lib} (hL : LibSpec L) (Q : Qhull) {E : Mat ℝ} {f : Vec ℝ} (c : Vec ℝ) (hE : E.nc = 1) (hf : f.n = E.nr) {y0 : ℕ → ℝ} (hy0 : InRows E f y0)
    (hn : ∑ j ∈ range E.nc, y0 j ^ 2 < 1 / (1e-7 : ℝ) ^ 2 - 1) (hb : ∃ M, ∀ y, InRows E f y → ∀ l < E.nc, |y l| ≤ M)
    (hgap : ∀ i < E.nr, ∀ k < E.nr, (∃ x, E.e k 0 * x ≤ f.e k ∧ f.e i < E.e i 0 * x) → ∃ x, E.e k 0 * x ≤ f.e k ∧ f.e i + 1e-7 ≤ E.e i 0 * x) :
    ∃ vs, innerVertices L Q E f c = .ok vs ∧ Extreme E f vs := by
  obtain ⟨r, i, j, hk, hi, hj, pi, pj, hrun⟩ := interval_run hL Q c hE hf hy0 hn hb
  have hv : ∀ i (x : ℕ → ℝ), Spec.rowVal E i x = E.e i 0 * x 0 := fun i x => by simp [Spec.rowVal, hE]
  have si : Sign 1 := Or.inl rfl
  have sj : Sign (-1) := Or.inr rfl
  have pi' : (0:ℝ) < 1 * E.e i 0 := by linarith
  have pj' : (0:ℝ) < -1 * E.e j 0 := by linarith
  have ei := hk.exact si hi pi' fun l hl => hgap l hl i (hk.lt i hi)
  have ej := hk.exact sj hj pj' fun l hl => hgap l hl j (hk.lt j hj)
  have ti := (hk.side si hi pi').2
  have tj := (hk.side sj hj pj').2
  set u := f.e i / E.e i 0 with hu
  set l := f.e j / E.e j 0 with hl
  have key : ∀ y, (y 0 = u ∨ y 0 = l) ↔ Spec.IsVertex E.nc (InRows E f) y := by
    intro y
    rw [hE]
    constructor
    · intro h
      have hS : InRows E f y := by
        intro q hq
        rw [hv]
        rcases h with h | h <;> rw [h]
        · exact ei q hq
        · exact ej q hq
      refine ⟨hS, fun v h1 h2 d hd => ?_⟩
      obtain rfl : d = 0 := by omega
      rcases h with h | h
      · have g1 := h1 i (hk.lt i hi)
        have g2 := h2 i (hk.lt i hi)
        rw [hv] at g1 g2
        simp only [h] at g1 g2
        have : E.e i 0 * v 0 = 0 := by nlinarith
        exact (mul_eq_zero.1 this).resolve_left pi.ne'
      · have g1 := h1 j (hk.lt j hj)
        have g2 := h2 j (hk.lt j hj)
        rw [hv] at g1 g2
        simp only [h] at g1 g2
        have : E.e j 0 * v 0 = 0 := by nlinarith
        exact (mul_eq_zero.1 this).resolve_left pj.ne
    · rintro ⟨h1, h2⟩
      by_contra hno
      push Not at hno
      have yu : y 0 ≤ u := by
        have := h1 i (hk.lt i hi)
        rw [hv, ← ti] at this
        exact le_of_mul_le_mul_left this pi
      have yl : l ≤ y 0 := by
        have := h1 j (hk.lt j hj)
        rw [hv, ← tj] at this
        nlinarith
      have hseg : ∀ x : ℕ → ℝ, l ≤ x 0 → x 0 ≤ u → InRows E f x := by
        intro x hx1 hx2 q hq
        rw [hv]
        rcases le_or_gt 0 (E.e q 0) with hp | hp
        · exact (mul_le_mul_of_nonneg_left hx2 hp).trans (ei q hq)
        · exact (mul_le_mul_of_nonpos_left hx1 hp.le).trans (ej q hq)
      have hlt1 : y 0 < u := lt_of_le_of_ne yu hno.1
      have hlt2 : l < y 0 := lt_of_le_of_ne yl (Ne.symm hno.2)
      have hm : 0 < min (u - y 0) (y 0 - l) := lt_min (by linarith) (by linarith)
      have m1 := min_le_left (u - y 0) (y 0 - l)
      have m2 := min_le_right (u - y 0) (y 0 - l)
      have := h2 (fun _ => min (u - y 0) (y 0 - l)) (hseg _ (by linarith) (by linarith)) (hseg _ (by linarith) (by linarith)) 0 (by norm_num)
      linarith
  rcases hrun with h | h
  all_goals
    refine ⟨_, h, fun v hv => ?_, fun y => ?_⟩
    · rw [hE]
      rcases List.mem_pair.1 hv with rfl | rfl <;> rfl
    · rw [← key y, hE]
      constructor
      · rintro ⟨v, hv, hy⟩
        have := hy 0 (by norm_num)
        rcases List.mem_pair.1 hv with rfl | rfl
        · first | exact Or.inl this | exact Or.inr this
        · first | exact Or.inl this | exact Or.inr this
      · rintro (h | h)
        · refine ⟨⟨1, fun _ => u⟩, by simp, fun q hq => ?_⟩
          obtain rfl : q = 0 := by omega
          exact h
        · refine ⟨⟨1, fun _ => l⟩, by simp, fun q hq => ?_⟩
          obtain rfl : q = 0 := by omega
          exact h

end Poly
end Verif
