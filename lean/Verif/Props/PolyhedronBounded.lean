import Verif.Proofs.PolyBounded
import Verif.Props.PolyhedronRedundancy

/- Properties of `bounded` of `/repo/pympc/geometry/polyhedron.py` (C17). -/
namespace Verif.Props
open Finset Verif.Math

/-- what `bounded` answers, without any hypothesis on the scaling of the data: a bounded set is always
reported bounded; if the answer is `True`, the recession directions are nearly parallel to the
inequalities, and only the zero direction is parallel to all of them -/
theorem C17_any_scaling (L : Lib) (hL : LibSpec L) (n : ℕ) (p : Poly) (hp : p.Inv n) (hc : p.EmptyOk L)
    (hb : p._bounded = none) (hrows : p.HasRows) (hn : 0 < n) (hne : Spec.NearPoint n p.A p.b p.C p.d) :
    ∃ r q, Poly.bounded L p = (.ok r, q) ∧
      (Spec.IsBounded n p.A p.b p.C p.d → r = true) ∧
      (r = true → ∀ v, Spec.Recession p.A p.C v →
        ∑ i ∈ range p.A.nr, |Spec.rowVal p.A i v| ≤ 2e-7 * ∑ j ∈ range n, |v j| ∧
        ((∀ i < p.A.nr, Spec.rowVal p.A i v = 0) → ∀ j < n, v j = 0)) := by
  obtain ⟨s1, s2, s3, s4⟩ := id hp
  obtain ⟨x0, hx0, hnear⟩ := id hne
  have hrun := Poly.bounded_run hL hp hc hb ((Poly.computeEmpty_false_iff hL hp hrows).2 hne) hn
  have hrs : 0 < (p.A.vapp (p.C.vapp p.C.neg)).nr := by
    show 0 < p.A.nr + (p.C.nr + p.C.nr)
    unfold Poly.HasRows at hrows
    omega
  have hiff := Poly.isBounded_iff hp hx0
  have hrec := Poly.recession_stack hp
  have hstack := fun x => forall_stack3 (b := p.b) (d := p.d) s2 s4 (s1.trans s3.symm) (P := fun a _ => a = 0) x
  have hsum : ∀ v, ∑ i ∈ range p.A.nr, |Spec.rowVal p.A i v|
      ≤ ∑ i ∈ range (p.A.vapp (p.C.vapp p.C.neg)).nr, |Spec.rowVal (p.A.vapp (p.C.vapp p.C.neg)) i v| := by
    intro v
    rw [show (p.A.vapp (p.C.vapp p.C.neg)).nr = p.A.nr + (p.C.nr + p.C.nr) from rfl, Finset.sum_range_add]
    have : ∑ i ∈ range p.A.nr, |Spec.rowVal p.A i v|
        = ∑ i ∈ range p.A.nr, |Spec.rowVal (p.A.vapp (p.C.vapp p.C.neg)) i v| := by
      refine Finset.sum_congr rfl fun i hi => ?_
      congr 1
      exact Finset.sum_congr rfl fun j _ => by rw [Mat.vapp_e_lt _ _ _ (mem_range.1 hi)]
    rw [this]
    have h2 : 0 ≤ ∑ i ∈ range (p.C.nr + p.C.nr), |Spec.rowVal (p.A.vapp (p.C.vapp p.C.neg)) (p.A.nr + i) v| :=
      Finset.sum_nonneg fun _ _ => abs_nonneg _
    linarith
  generalize hA' : p.A.vapp (p.C.vapp p.C.neg) = A' at *
  have hnc : A'.nc = n := by rw [← hA']; exact s1
  by_cases hnull : 0 < (Geom.nullBasis L A').nc
  · rw [if_pos hnull] at hrun
    refine ⟨false, _, hrun, fun hbd => ?_, fun h => by cases h⟩
    exfalso
    obtain ⟨v, hv, h0⟩ := (nullspace_pos_iff hL A').1 hnull
    apply hv
    funext j
    have := hiff.1 hbd (Vec.ofFn v).e ((hrec _).2 fun i hi => by
      rw [rowVal_ofFn A' rfl v ⟨i, hi⟩, h0]; exact le_rfl) j (hnc ▸ j.2)
    rwa [show (Vec.ofFn v).e j = v j from congrFun (Vec.ofFn_asV v) j] at this
  · rw [if_neg hnull] at hrun
    obtain ⟨r, hr⟩ := Poly.computeBounded_ok hL A' hrs
    rw [hr] at hrun
    refine ⟨r, _, hrun, fun hbd => ?_, fun h v hv => ⟨?_, fun h0 j hj => ?_⟩⟩
    · obtain ⟨y, hy, he⟩ := stiemke (A'.asM A'.nr A'.nc) (fun d hd => by
        have : d = 0 := by
          funext j
          have := hiff.1 hbd (Vec.ofFn d).e ((hrec _).2 fun i hi => by
            rw [rowVal_ofFn A' rfl d ⟨i, hi⟩]; exact hd ⟨i, hi⟩) j (hnc ▸ j.2)
          rwa [show (Vec.ofFn d).e j = d j from congrFun (Vec.ofFn_asV d) j] at this
        rw [this, Matrix.mulVec_zero])
      have := Poly.computeBounded_true hL hrs hy he
      rw [hr] at this
      cases this
      rfl
    · subst h
      have := Poly.computeBounded_recession hL hr ((hrec v).1 hv)
      rw [hnc] at this
      exact (hsum v).trans this
    · by_contra hvj
      apply hnull
      refine (nullspace_pos_iff hL A').2 ⟨fun j => v j, fun h => hvj (congrFun h ⟨j, hnc.symm ▸ hj⟩), ?_⟩
      funext i
      rw [← rowVal_mulVec A' rfl]
      exact (hstack v).2 ⟨h0, hv.2, fun i hi => by rw [hv.2 i hi]; simp⟩ i i.2

/-- C17: for a polyhedron that is not reported empty and whose data are not badly scaled, `bounded` is
`True` exactly when the set is bounded; for a polyhedron that is reported empty `bounded` is `True`.  Without any
inequality or equality it raises `RuntimeError`, and `ValueError` in the space without coordinates. -/
theorem C17 (L : Lib) (hL : LibSpec L) (n : ℕ) (p : Poly) (hp : p.Inv n) (hc : p.EmptyOk L)
    (hb : p._bounded = none) :
    (0 < p.A.nr ∨ 0 < p.C.nr → 0 < n → Spec.NearPoint n p.A p.b p.C p.d → Spec.WellScaled 2e-7 n p.A p.C →
      ∃ r q, Poly.bounded L p = (.ok r, q) ∧ (r = true ↔ Spec.IsBounded n p.A p.b p.C p.d)) ∧
    (¬ Spec.NearPoint n p.A p.b p.C p.d → ∃ q, Poly.bounded L p = (.ok true, q)) ∧
    (p.A.nr = 0 → p.C.nr = 0 → Poly.bounded L p = (.error .runtimeError, p)) ∧
    (0 < p.A.nr ∨ 0 < p.C.nr → n = 0 → Spec.NearPoint n p.A p.b p.C p.d →
      Poly.bounded L p = (.error .valueError, { p with _empty := some false })) := by
  refine ⟨?_, ?_, ?_, ?_⟩
  · intro hrows hn hne hsc
    obtain ⟨r, q, h1, h2, h3⟩ := C17_any_scaling L hL n p hp hc hb hrows hn hne
    obtain ⟨x0, hx0, -⟩ := hne
    refine ⟨r, q, h1, fun hr => (Poly.isBounded_iff hp hx0).2 fun v hv => ?_, h2⟩
    by_contra h0
    push Not at h0
    obtain ⟨w, hw, ⟨j, hj, hne⟩, hz | hlt⟩ := hsc ⟨v, hv, h0⟩
    · exact hne ((h3 hr w hw).2 hz j hj)
    · have := (h3 hr w hw).1
      linarith
  · intro hne
    have hrows : p.HasRows := by
      by_contra h0
      unfold Poly.HasRows at h0
      exact hne ⟨fun _ => 0, ⟨fun i hi => absurd hi (by omega), fun i hi => absurd hi (by omega)⟩, by norm_num⟩
    obtain ⟨e, he, hrun⟩ := Poly.empty_run hL hp hrows hc
    have : e = true := by
      cases e with
      | true => rfl
      | false => exact absurd ((Poly.computeEmpty_false_iff hL hp hrows).1 he) hne
    subst this
    refine ⟨{ p with _empty := some true }, ?_⟩
    unfold Poly.bounded
    rw [PyM.bind_ok (PyM.get_apply p)]
    rw [hb] at hrun ⊢
    simp only
    rw [PyM.bind_ok hrun]
    rw [if_pos rfl]
    rfl
  · intro hA hC
    exact Poly.bounded_no_rows hL hp (by unfold Poly.HasRows; omega) hc hb
  · rintro hrows rfl hne
    exact Poly.bounded_no_dim hL hp hc hb ((Poly.computeEmpty_false_iff hL hp hrows).2 hne)

/-- the half line `{x ≤ 1}`, the segment `{x0 + x1 = 1, x ≥ 0}` and the half plane `{x0 ≤ 1}` are well scaled -/
example : Spec.WellScaled 2e-7 1 ⟨1, 1, fun _ _ => 1⟩ (Mat.zeros 0 1) ∧
    Spec.WellScaled 2e-7 2 (Mat.eye 2).neg ⟨1, 2, fun _ _ => 1⟩ ∧
    Spec.WellScaled 2e-7 2 ⟨1, 2, fun _ j => if j = 0 then 1 else 0⟩ (Mat.zeros 0 2) := by
  refine ⟨Spec.wellScaled_of ?_, Spec.wellScaled_of ?_, fun _ => ⟨fun j => if j = 0 then 0 else 1, ⟨fun i _ => ?_, fun i hi => absurd hi (Nat.not_lt_zero i)⟩,
    ⟨1, by norm_num, by simp⟩, .inl fun i _ => ?_⟩⟩
  rotate_left 2
  · simp [Spec.rowVal, Finset.sum_range_succ]
  · simp [Spec.rowVal, Finset.sum_range_succ]
  · rintro v ⟨h1, -⟩ ⟨i, hi, h0⟩
    have h2 := h1 0 (by norm_num)
    have : i < 1 := hi
    interval_cases i
    simp [Spec.rowVal] at h0 h2 ⊢
    have := abs_pos.2 h0
    norm_num
    linarith
  · rintro v ⟨h1, h2⟩ ⟨i, hi, h0⟩
    exfalso
    have e1 := h1 0 (by norm_num)
    have e2 := h1 1 (by norm_num)
    have e3 := h2 0 (by norm_num)
    have : i < 2 := hi
    simp [Spec.rowVal, Mat.eye, Finset.sum_range_succ] at e1 e2 e3 h0
    interval_cases i <;> simp at h0 <;> exact h0 (by linarith)

/-- the proviso of C17 cannot be dropped: `{1e-9 x ≤ 1}` is unbounded but `bounded` is `True` -/
theorem C17_scaling_false : ∃ p : Poly, p.Inv 1 ∧ (∀ L, p.EmptyOk L) ∧ p._bounded = none ∧
    Spec.NearPoint 1 p.A p.b p.C p.d ∧ ¬ Spec.IsBounded 1 p.A p.b p.C p.d ∧
    ∀ L, LibSpec L → ∃ q, Poly.bounded L p = (.ok true, q) := by
  let p := Poly.fresh ⟨1, 1, fun _ _ => 1e-9⟩ ⟨1, fun _ => 1⟩ (Mat.zeros 0 1) (Vec.zeros 0)
  have hp : p.Inv 1 := ⟨rfl, rfl, rfl, rfl⟩
  have hc : ∀ L, p.EmptyOk L := fun L e h => (by cases h)
  have heq : ∀ x, Spec.EqHold p.C p.d x := fun x i hi => absurd hi (by simp [p, Poly.fresh, Mat.zeros])
  have hmem : ∀ x : ℕ → ℝ, x 0 ≤ 0 → p.Mem x := fun x hx => ⟨fun i hi => by
    have : i < 1 := hi
    interval_cases i
    simp [p, Poly.fresh]
    norm_num
    linarith, heq x⟩
  have hne : Spec.NearPoint 1 p.A p.b p.C p.d := ⟨fun _ => 0, hmem _ le_rfl, by norm_num⟩
  refine ⟨p, hp, hc, rfl, hne, ?_, fun L hL => ?_⟩
  · rintro ⟨R, hR⟩
    have := hR (fun _ => -(|R| + 1)) (hmem _ (by have := abs_nonneg R; linarith)) 0 (by norm_num)
    rw [abs_neg, abs_of_pos (by have := abs_nonneg R; linarith)] at this
    have := le_abs_self R
    linarith
  · have hrun := Poly.bounded_run hL hp (hc L) rfl ((Poly.computeEmpty_false_iff hL hp (.inl (show 0 < 1 by norm_num))).2 hne) (by norm_num)
    generalize hA' : p.A.vapp (p.C.vapp p.C.neg) = A' at hrun
    have hnr : A'.nr = 1 := by rw [← hA']; rfl
    have hnc : A'.nc = 1 := by rw [← hA']; rfl
    have ha : A'.e 0 0 = 1e-9 := by rw [← hA']; rfl
    have hnull : ¬ 0 < (Geom.nullBasis L A').nc := by
      rw [nullspace_pos_iff hL]
      rintro ⟨v, hv, h0⟩
      apply hv
      funext j
      have h1 := congrFun h0 ⟨0, by omega⟩
      rw [← rowVal_ofFn A' rfl] at h1
      simp [Spec.rowVal, hnc, ha] at h1
      have hj : (j : ℕ) = 0 := by have := j.2; omega
      have h2 := congrFun (Vec.ofFn_asV v) j
      rw [← h2]
      show (Vec.ofFn v).e j = 0
      rw [hj]
      exact h1.resolve_left (by norm_num)
    rw [if_neg hnull] at hrun
    have hb : Poly.computeBounded L A' = .ok true := by
      have hs : Spec.ConstrShape A'.nr (Mat.eye A'.nr).neg (Vec.ones A'.nr).neg (some A'.T) (some (Vec.zeros A'.nc)) :=
        ⟨rfl, rfl, rfl, rfl⟩
      obtain ⟨q, AC, bd, ys, x, r, hS, h1, h2, h3, h4, h5, h6, h7, -⟩ := lp_run hL (f := Vec.ones A'.nr) rfl hs 1e-7
      have hq : q = 1 := by rw [← hS.Cnr A'.T rfl]; exact hnc
      subst hq
      have hACnr : AC.nr = 3 := by rw [hS.nr]; show A'.nr + 2 * 1 = 3; omega
      have hACnc : AC.nc = 1 := hS.nc.trans hnr
      have hfeas := (hS.feasTol 1e-9 ⟨1, fun _ => 1⟩).2 ⟨fun i hi => by
          have hi' : i < A'.nr := hi
          show ∑ j ∈ range A'.nr, (Mat.eye A'.nr : Mat ℝ).neg.e i j * (fun _ => (1 : ℝ)) j ≤ (-1 : ℝ) + 1e-9
          rw [Poly.neg_eye_row _ _ hi']; norm_num, fun i hi => by
          have : i < 1 := hnc ▸ hi
          interval_cases i
          show |∑ j ∈ range A'.nr, A'.e j 0 * 1 - 0| ≤ _
          rw [hnr, Finset.sum_range_one, ha]
          rw [abs_of_pos] <;> norm_num⟩
      have hgrad : ∑ i ∈ range AC.nr, AC.e i 0 * (if i = 0 then (1 : ℝ) else 0) = -1 := by
        have g := hS.grad (fun i => if i = 0 then 1 else 0) 0
        rw [← hS.nr] at g
        calc _ = ∑ i ∈ range AC.nr, (if i = 0 then (1 : ℝ) else 0) * AC.e i 0 :=
              Finset.sum_congr rfl fun i _ => mul_comm _ _
          _ = _ := g
          _ = -1 := by
            simp [Spec.eqGrad, hnr, hnc, Mat.eye]
      have hval : ∑ i ∈ range AC.nr, bd.e i * (if i = 0 then (1 : ℝ) else 0) = -1 := by
        have g := hS.value (fun i => if i = 0 then 1 else 0)
        rw [← hS.nr] at g
        rw [g]
        simp [Spec.eqValue, hnr, hnc, Vec.ones, Vec.zeros]
      have hres := h6 (fun i => if i = 0 then 1 else 0)
        (fun i => max 0 (bd.e i - ∑ j ∈ range AC.nc, AC.e i j * 1)) (fun _ => 1)
        (fun i _ => by split <;> norm_num) (fun i _ => le_max_left _ _)
      have hle : lpRes (Vec.ones A'.nr) AC bd (fun i => if i = 0 then 1 else 0)
          (fun i => max 0 (bd.e i - ∑ j ∈ range AC.nc, AC.e i j * 1)) (fun _ => 1) ≤ 3 * (1e-9) ^ 2 := by
        unfold lpRes
        rw [hval, hACnc, Finset.sum_range_one, Finset.sum_range_one, hgrad, hACnr]
        simp only [Finset.sum_range_one]
        have : ∀ i < 3, (max 0 (bd.e i - AC.e i 0 * 1) + AC.e i 0 * 1 - bd.e i) ^ 2 ≤ (1e-9 : ℝ) ^ 2 := by
          intro i hi
          have := hfeas i (hACnr ▸ hi)
          rw [hACnc, Finset.sum_range_one] at this
          apply pow_le_pow_left₀
          · have := le_max_right 0 (bd.e i - AC.e i 0 * 1); linarith
          · rcases max_cases 0 (bd.e i - AC.e i 0 * 1) with ⟨h, -⟩ | ⟨h, -⟩ <;> rw [h]
            · simp only at this; linarith
            · norm_num
        have e : (Vec.ones A'.nr : Vec ℝ).e 0 = 1 := rfl
        rw [e, Finset.sum_range_succ, Finset.sum_range_succ, Finset.sum_range_one]
        linarith [this 0 (by norm_num), this 1 (by norm_num), this 2 (by norm_num)]
      have hr : r < 1e-7 := by
        rw [h5, Real.sqrt_lt' (by norm_num)]
        refine lt_of_le_of_lt (hres.trans hle) (by norm_num)
      have h7 := h7 (.inl (show 0 < A'.nr by omega))
      rw [if_pos hr] at h7
      unfold Poly.computeBounded lpDefault
      rw [h7]
      rfl
    rw [hb] at hrun
    exact ⟨_, hrun⟩

end Verif.Props
