import Verif.Model.Pwa
import Verif.Proofs.Condense
import Verif.Props.Controllable
import Verif.Props.PolyhedronBasic
import Verif.Props.PolyhedronBounded
import Verif.Props.PolyhedronRedundancy
import Verif.Proofs.PolyChebyshev
import Verif.Proofs.LPMain

/- Lemmas about `mcais` of `/repo/pympc/dynamics/discrete_time_systems.py`. -/
namespace Verif.Dyn
open Finset Spec Props

theorem orbit_shift (A : Mat ℝ) (x : ℕ → ℝ) (t : ℕ) : orbit A (orbit A x 1) t = orbit A x (t + 1) := by
  induction t with
  | zero => rfl
  | succ t ih => rw [orbit, ih]; rfl

theorem rowVal_power {n : ℕ} {A : Mat ℝ} (h1 : A.nr = n) (h2 : A.nc = n) (x : ℕ → ℝ) : ∀ t, ∀ i < n,
    rowVal (np.matrix_power A t) i x = orbit A x t i
  | 0, i, hi => by rw [np.matrix_power, h1]; exact rowVal_eye hi x
  | t + 1, i, hi => by
    rw [np.matrix_power, rowVal_mul (by rw [h2, (power_shape h1 h2 t).1]),
      rowVal_congr' i (fun j hj => rowVal_power h1 h2 x t j (by omega))]
    rfl

/-- the polyhedron has no equalities -/
theorem mem_noeq {p : Poly} (hC : p.C.nr = 0) (x : ℕ → ℝ) : p.Mem x ↔ ∀ i < p.A.nr, rowVal p.A i x ≤ p.b.e i := by
  refine ⟨fun h => h.1, fun h => ⟨h, fun i hi => ?_⟩⟩
  omega

/-- the linear program of one facet -/
theorem facet_lp {L : Lib} (hL : LibSpec L) {n : ℕ} {O : Poly} (hO : O.Inv n) (hC : O.C.nr = 0) (hn : 0 < n) {x0 : ℕ → ℝ} (h0 : O.Mem x0)
    (hbd : ∃ R, ∀ x, O.Mem x → ∀ j < n, |x j| ≤ R) (f : Vec ℝ) (hf : f.n = n) :
    ∃ m, (lpDefault L f.neg O.A O.b >>= Poly.negMin) = .ok m ∧ (∃ x, O.Mem x ∧ ∑ j ∈ range n, f.e j * x j = m) ∧
      ∀ y, O.Mem y → ∑ j ∈ range n, f.e j * y j ≤ m := by
  have hs : Spec.ConstrShape n O.A O.b none none := ⟨hO.1, hO.2.1⟩
  have hfeas : ∀ x : Vec ℝ, Spec.Feasible O.A O.b none none x ↔ O.Mem x.e := fun x => by
    rw [mem_noeq hC]
    exact ⟨fun h => h.1, fun h => ⟨h, trivial⟩⟩
  have hcost : ∀ x : Vec ℝ, Spec.lpCost f.neg x = -∑ j ∈ range n, f.e j * x.e j := fun x => by
    simp [Spec.lpCost, hf]
  have hrows : 0 < O.A.nr := (Poly.hasRows_of_bounded hn hbd).resolve_right (by omega)
  have hopt : ∃ x, Spec.IsLpOpt f.neg O.A O.b none none x := by
    by_contra hno
    rcases no_lpOpt (f := f.neg) (n := n) hf hs hno with h | h
    · exact h ⟨n, x0⟩ ((hfeas _).2 h0)
    · obtain ⟨R, hR⟩ := hbd
      obtain ⟨x, hx, hlt⟩ := h (-∑ j ∈ range n, |f.e j| * R)
      rw [hcost] at hlt
      have : ∑ j ∈ range n, f.e j * x.e j ≤ ∑ j ∈ range n, |f.e j| * R := by
        refine Finset.sum_le_sum fun j hj => ?_
        calc f.e j * x.e j ≤ |f.e j * x.e j| := le_abs_self _
          _ = |f.e j| * |x.e j| := abs_mul _ _
          _ ≤ |f.e j| * R := mul_le_mul_of_nonneg_left (hR x.e ((hfeas x).1 hx) j (mem_range.1 hj)) (abs_nonneg _)
      linarith
  obtain ⟨x, lam, mu, h1, h2, ⟨h3, h4⟩, -⟩ := lp_finds hL (f := f.neg) (n := n) hf hs (.inl hrows) (tol := 1e-7) (by norm_num) hopt
  refine ⟨∑ j ∈ range n, f.e j * x.e j, ?_, ⟨x.e, (hfeas x).1 h3, rfl⟩, fun y hy => ?_⟩
  · unfold lpDefault
    rw [h1, Py.ok_bind, Poly.negMin, hcost]
    simp only [neg_neg]
  · have := h4 ⟨n, y⟩ ((hfeas _).2 hy)
    rw [hcost, hcost] at this
    simpa using this

theorem residuals_ok {L : Lib} (hL : LibSpec L) {n : ℕ} {O : Poly} (hO : O.Inv n) (hC : O.C.nr = 0) (hn : 0 < n) {x0 : ℕ → ℝ}
    (h0 : O.Mem x0) (hbd : ∃ R, ∀ x, O.Mem x → ∀ j < n, |x j| ≤ R) {J : Mat ℝ} (hJ : J.nc = n) (XA : Mat ℝ) (Xb : Vec ℝ) :
    ∃ m : ℕ → ℝ, residuals L J XA Xb O = .ok ((List.range XA.nr).map fun i => m i - Xb.e i) ∧
      ∀ i < XA.nr, (∃ x, O.Mem x ∧ rowVal J i x = m i) ∧ ∀ y, O.Mem y → rowVal J i y ≤ m i := by
  have := fun i => facet_lp hL hO hC hn h0 hbd (J.row i) hJ
  choose m h1 h2 h3 using this
  refine ⟨m, mapM_ok fun i _ => ?_, fun i _ => ⟨?_, ?_⟩⟩
  · obtain ⟨sol, k1, k2⟩ := Py.bind_eq_ok (h1 i)
    rw [k1, Py.ok_bind, k2]
    rfl
  · obtain ⟨x, k1, k2⟩ := h2 i
    exact ⟨x, k1, by rw [← k2]; simp [rowVal, hJ]⟩
  · intro y hy
    have := h3 i y hy
    simpa [rowVal, hJ] using this

theorem mem_newFacets (m : ℕ → ℝ) (N : ℕ) (i : ℕ) : i ∈ newFacets ((List.range N).map m) ↔ i < N ∧ 0 < m i := by
  unfold newFacets
  simp only [List.length_map, List.length_range, List.mem_filter, List.mem_range, decide_eq_true_eq]
  refine and_congr_right fun hi => ?_
  rw [List.getD_eq_getElem _ _ (by simpa using hi)]
  simp

/-- `O_t`: the points whose first `t` states are in `X` -/
def Level (X : Poly) (A : Mat ℝ) (O : Poly) (t : ℕ) : Prop := ∀ x, O.Mem x ↔ ∀ s < t, X.Mem (orbit A x s)

/-- one iteration of the loop -/
theorem loop_step {L : Lib} (hL : LibSpec L) {n : ℕ} (hn : 0 < n) {A : Mat ℝ} (hA1 : A.nr = n) (hA2 : A.nc = n) {X : Poly}
    (hX : X.Inv n) (hXC : X.C.nr = 0) (h0 : X.Mem fun _ => 0) (hbd : IsBounded n X.A X.b X.C X.d) {O : Poly} (hO : O.Inv n)
    (hOC : O.C.nr = 0) {t : ℕ} (ht : 1 ≤ t) (hlev : Level X A O t) :
    (∀ fuel, mcaisLoop L A X.A X.b (fuel + 1) O t = .ok (some O) ∧ ∀ x, O.Mem x → X.Mem (orbit A x t)) ∨
    ∃ O', (∀ fuel, mcaisLoop L A X.A X.b (fuel + 1) O t = mcaisLoop L A X.A X.b fuel O' (t + 1)) ∧ O'.Inv n ∧ O'.C.nr = 0 ∧
      O'.EmptyOk L ∧ Level X A O' (t + 1) ∧ ∃ x, O.Mem x ∧ ¬ X.Mem (orbit A x t) := by
  obtain ⟨s1, s2, s3, s4⟩ := id hX
  have hz : ∀ t, orbit A (fun _ => 0) t = fun _ => 0 := by
    intro t
    induction t with
    | zero => rfl
    | succ t ih => funext i; rw [orbit, ih]; simp
  have hO0 : O.Mem fun _ => 0 := (hlev _).2 fun s _ => by rw [hz]; exact h0
  have hObd : ∃ R, ∀ x, O.Mem x → ∀ j < n, |x j| ≤ R := by
    obtain ⟨R, hR⟩ := hbd
    exact ⟨R, fun x hx => hR x ((hlev x).1 hx 0 (by omega))⟩
  set J := X.A.mul (np.matrix_power A t) with hJ
  have hP := power_shape hA1 hA2 t
  have e1 : np.dotMM X.A (np.matrix_power A t) = .ok J := if_pos (by rw [s1, hP.1])
  have hJnc : J.nc = n := hP.2
  have hJv : ∀ i x, rowVal J i x = rowVal X.A i (orbit A x t) := fun i x => by
    rw [hJ, rowVal_mul (by rw [s1, hP.1])]
    exact rowVal_congr' i fun j hj => rowVal_power hA1 hA2 x t j (by omega)
  obtain ⟨m, hm1, hm2⟩ := residuals_ok hL hO hOC hn hO0 hObd hJnc X.A X.b
  set nf := newFacets ((List.range X.A.nr).map fun i => m i - X.b.e i) with hnf
  have hmem : ∀ i, i ∈ nf ↔ i < X.A.nr ∧ 0 < m i - X.b.e i := fun i => mem_newFacets _ _ i
  by_cases hemp : nf = []
  · left
    intro fuel
    refine ⟨?_, fun x hx => (mem_noeq hXC _).2 fun i hi => ?_⟩
    · rw [mcaisLoop, e1, Py.ok_bind, hm1, Py.ok_bind]
      simp only [← hnf]
      rw [if_pos hemp]
      rfl
    · rw [← hJv]
      have h1 : ¬ (0 < m i - X.b.e i) := fun h => by
        have := (hmem i).2 ⟨hi, h⟩
        rw [hemp] at this
        simp at this
      have := (hm2 i hi).2 x hx
      linarith
  · right
    have e2 : np.rows J nf = .ok (J.rows nf) := if_pos fun i hi => by
      rw [hJ]; exact ((hmem i).1 hi).1
    have e3 : np.take X.b nf = .ok (X.b.take nf) := if_pos fun i hi => by rw [s2]; exact ((hmem i).1 hi).1
    obtain ⟨q, hq⟩ := ((C02 n O hO (J.rows nf) (.d1 (X.b.take nf)) none (by simp)).1).2 ⟨rfl, rfl, by
      simp [Mat.rows, hJnc]⟩
    obtain ⟨hqi, v, hv, hqm⟩ := ((C02 n O hO (J.rows nf) (.d1 (X.b.take nf)) none (by simp)).2.1) q hq
    cases hv
    have hqm' : ∀ x, q.Mem x ↔ O.Mem x ∧ ∀ i ∈ nf, rowVal J i x ≤ X.b.e i := by
      intro x
      rw [hqm]
      refine and_congr_right fun _ => ?_
      have e : ∀ k, ∑ j ∈ range n, (J.rows nf).e k j * x ((List.range n).getD j 0) = rowVal J (nf.getD k 0) x := by
        intro k
        unfold rowVal
        rw [hJnc]
        refine Finset.sum_congr rfl fun j hj => ?_
        rw [List.getD_eq_getElem _ _ (by simpa using hj)]
        simp [Mat.rows]
      constructor
      · intro h i hi
        obtain ⟨k, hk, rfl⟩ := List.getElem_of_mem hi
        have := h k hk
        rw [show (J.rows nf).nc = n from hJnc] at this
        simp only [Option.getD_none] at this
        rw [e, List.getD_eq_getElem _ _ hk] at this
        rwa [show (X.b.take nf).e k = X.b.e (nf.getD k 0) from rfl, List.getD_eq_getElem _ _ hk] at this
      · intro h k hk
        have hk : k < nf.length := hk
        rw [show (J.rows nf).nc = n from hJnc]
        simp only [Option.getD_none]
        rw [e, List.getD_eq_getElem _ _ hk]
        rw [show (X.b.take nf).e k = X.b.e (nf.getD k 0) from rfl, List.getD_eq_getElem _ _ hk]
        exact h _ (List.getElem_mem hk)
    obtain ⟨w, hw, -, -, hqe⟩ := (Poly.add_inequality_ok hO _ _ _ _).1 hq
    refine ⟨q, fun fuel => ?_, hqi, by rw [hqe]; exact hOC, ?_, fun x => ?_, ?_⟩
    · rw [mcaisLoop, e1, Py.ok_bind, hm1, Py.ok_bind]
      simp only [← hnf]
      rw [if_neg hemp, e2, Py.ok_bind, e3, Py.ok_bind, Poly.runOn, hq]
      rfl
    · intro e he
      rw [hqe] at he
      cases he
    · rw [hqm', hlev x]
      constructor
      · rintro ⟨h1, h2⟩ s hs
        rcases (show s < t ∨ s = t by omega) with h | rfl
        · exact h1 s h
        · refine (mem_noeq hXC _).2 fun i hi => ?_
          rw [← hJv]
          by_cases hin : i ∈ nf
          · exact h2 i hin
          · have h3 : ¬ (0 < m i - X.b.e i) := fun h => hin ((hmem i).2 ⟨hi, h⟩)
            have := (hm2 i hi).2 x ((hlev x).2 h1)
            linarith
      · intro h
        refine ⟨fun s hs => h s (by omega), fun i hi => ?_⟩
        rw [hJv]
        exact (mem_noeq hXC _).1 (h t (by omega)) i ((hmem i).1 hi).1
    · obtain ⟨i, hi⟩ := List.exists_mem_of_ne_nil _ hemp
      obtain ⟨h1, h2⟩ := (hmem i).1 hi
      obtain ⟨x, hx, hxm⟩ := (hm2 i h1).1
      refine ⟨x, hx, fun h => ?_⟩
      have := (mem_noeq hXC _).1 h i h1
      rw [← hJv, hxm] at this
      linarith

/-- the loop: it never raises; when it stops, it has found the set of the points that stay in `X` for ever -/
theorem loop_ok {L : Lib} (hL : LibSpec L) {n : ℕ} (hn : 0 < n) {A : Mat ℝ} (hA1 : A.nr = n) (hA2 : A.nc = n) {X : Poly}
    (hX : X.Inv n) (hXC : X.C.nr = 0) (h0 : X.Mem fun _ => 0) (hbd : IsBounded n X.A X.b X.C X.d) :
    ∀ (fuel : ℕ) (O : Poly) (t : ℕ), O.Inv n → O.C.nr = 0 → O.EmptyOk L → 1 ≤ t → Level X A O t →
      (mcaisLoop L A X.A X.b fuel O t = .ok none ∧ ∀ s, t ≤ s → s < t + fuel →
        ∃ x, (∀ r < s, X.Mem (orbit A x r)) ∧ ¬ X.Mem (orbit A x s)) ∨
      ∃ O' t', mcaisLoop L A X.A X.b fuel O t = .ok (some O') ∧ O'.Inv n ∧ O'.C.nr = 0 ∧ O'.EmptyOk L ∧ t ≤ t' ∧
        t' < t + fuel ∧ Level X A O' t' ∧ ∀ x, O'.Mem x → X.Mem (orbit A x t') := by
  intro fuel
  induction fuel with
  | zero => intro O t _ _ _ _ _; exact .inl ⟨rfl, fun s h1 h2 => by omega⟩
  | succ fuel ih =>
    intro O t hO hOC hOE ht hlev
    rcases loop_step hL hn hA1 hA2 hX hXC h0 hbd hO hOC ht hlev with h | ⟨O', h1, h2, h3, h4, h5, x, hx1, hx2⟩
    · obtain ⟨h1, h2⟩ := h fuel
      exact .inr ⟨O, t, h1, hO, hOC, hOE, le_rfl, by omega, hlev, h2⟩
    · rw [h1 fuel]
      rcases ih O' (t + 1) h2 h3 h4 (by omega) h5 with ⟨k1, k2⟩ | ⟨O'', t', k1, k2, k3, k4, k5, k6, k7⟩
      · refine .inl ⟨k1, fun s hs1 hs2 => ?_⟩
        rcases (show s = t ∨ t + 1 ≤ s by omega) with rfl | h
        · exact ⟨x, (hlev x).1 hx1, hx2⟩
        · exact k2 s h (by omega)
      · exact .inr ⟨O'', t', k1, k2, k3, k4, by omega, by omega, k7⟩

/-- a set of the points whose first states are in `X`, which are also in `X` once more, is the set of the points that stay in `X` -/
theorem level_forever {X : Poly} {A : Mat ℝ} {O : Poly} {t : ℕ} (ht : 1 ≤ t) (hlev : Level X A O t)
    (hmore : ∀ x, O.Mem x → X.Mem (orbit A x t)) (x : ℕ → ℝ) : O.Mem x ↔ ∀ s, X.Mem (orbit A x s) := by
  have hinv : ∀ x, O.Mem x → O.Mem (orbit A x 1) := by
    intro x hx
    refine (hlev _).2 fun s hs => ?_
    rw [orbit_shift]
    rcases (show s + 1 < t ∨ s + 1 = t by omega) with h | h
    · exact (hlev x).1 hx _ h
    · rw [h]; exact hmore x hx
  constructor
  · intro hx s
    have : ∀ s, O.Mem (orbit A x s) := by
      intro s
      induction s with
      | zero => exact hx
      | succ s ih => exact hinv _ ih
    exact (hlev _).1 (this s) 0 (by omega)
  · intro h
    exact (hlev x).2 fun s _ => h s

/-- the state after `bounded` -/
theorem bounded_state {L : Lib} (hL : LibSpec L) {n : ℕ} {p : Poly} (hp : p.Inv n) (hc : p.EmptyOk L)
    (hne : NearPoint n p.A p.b p.C p.d) {r : Bool} {q : Poly} (h : Poly.bounded L p = (.ok r, q)) :
    q.A = p.A ∧ q.b = p.b ∧ q.C = p.C ∧ q.d = p.d ∧ q.EmptyOk L := by
  by_cases hb : p._bounded = none
  · have hrows : p.HasRows := by
      by_contra h0
      rw [Poly.bounded_no_rows hL hp h0 hc hb] at h
      cases h
    have he : Poly.computeEmpty L p.A p.b p.C p.d = .ok false := by
      obtain ⟨e, he, h1⟩ := Poly.computeEmpty_iff hL hp hrows
      obtain rfl : e = false := by
        rw [← Bool.not_eq_true]
        intro h2
        obtain ⟨x, k1, k2⟩ := hne
        exact absurd (h1.1 h2 x k1) (not_le.2 k2)
      exact he
    have hn : 0 < n := by
      by_contra h0
      obtain rfl : n = 0 := by omega
      rw [Poly.bounded_no_dim hL hp hc hb he] at h
      cases h
    rw [Poly.bounded_run hL hp hc hb he hn] at h
    have hE : ∀ bb, Poly.EmptyOk L { p with _empty := some false, _bounded := bb } := fun _ e h' => by cases h'; exact he
    split_ifs at h with h1
    · cases h; exact ⟨rfl, rfl, rfl, rfl, hE _⟩
    · cases hcb : Poly.computeBounded L (p.A.vapp (p.C.vapp p.C.neg)) with
      | ok r => rw [hcb] at h; cases h; exact ⟨rfl, rfl, rfl, rfl, hE _⟩
      | error e => rw [hcb] at h; cases h
  · obtain ⟨v, hv⟩ := Option.ne_none_iff_exists'.1 hb
    have : Poly.bounded L p = (.ok v, p) := by
      unfold Poly.bounded
      rw [PyM.bind_ok (PyM.get_apply p), hv]
      rfl
    rw [this] at h
    cases h
    exact ⟨rfl, rfl, rfl, rfl, hc⟩

end Verif.Dyn
