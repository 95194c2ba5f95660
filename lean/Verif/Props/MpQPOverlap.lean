import Verif.Props.MpQPExplicit

/- Where critical regions of `/repo/pympc/optimization/parametric_programs.py` overlap (C126). -/
namespace Verif.Props
open Finset
open MpQP

/-- an affine function that is nonnegative around a zero vanishes -/
theorem affine_zero {n : ℕ} {α : ℝ} {β x : ℕ → ℝ} {ε : ℝ} (hε : 0 < ε)
    (h : ∀ y : ℕ → ℝ, (∀ j < n, |y j - x j| ≤ ε) → ∑ j ∈ range n, β j * y j ≤ α)
    (h0 : ∑ j ∈ range n, β j * x j = α) (y : ℕ → ℝ) : ∑ j ∈ range n, β j * y j = α := by
  have hb : ∀ k < n, β k = 0 := by
    intro k hk
    have key : ∀ s : ℝ, |s| ≤ ε → β k * s ≤ 0 := by
      intro s hs
      have h1 := h (fun j => x j + if j = k then s else 0) (fun j _ => by
        rw [add_sub_cancel_left]
        split_ifs
        · exact hs
        · rw [abs_zero]; exact hε.le)
      simp only [mul_add, Finset.sum_add_distrib, mul_ite, mul_zero] at h1
      rw [Finset.sum_ite_eq' (range n) k, if_pos (mem_range.2 hk), h0] at h1
      linarith
    have h1 := key ε (by rw [abs_of_pos hε])
    have h2 := key (-ε) (by rw [abs_neg, abs_of_pos hε])
    have h3 : β k * ε = 0 := by linarith
    exact (mul_eq_zero.1 h3).resolve_right hε.ne'
  rw [← h0, Finset.sum_eq_zero fun j hj => by rw [hb j (mem_range.1 hj), zero_mul],
    Finset.sum_eq_zero fun j hj => by rw [hb j (mem_range.1 hj), zero_mul]]

/-- `x` is in the interior of the polyhedron -/
def Interior (n : ℕ) (p : Poly) (x : ℕ → ℝ) : Prop := ∃ ε > 0, ∀ y : ℕ → ℝ, (∀ j < n, |y j - x j| ≤ ε) → p.Mem y

/-- no constraint that is not in the active set is tight for all parameters -/
def NoIdle (nu nx : ℕ) (q : MpQP) (cr : CritReg) : Prop :=
  ∀ i < q.Au.nr, i ∉ cr.active_set → ∃ y u : Vec ℝ, y.n = nx ∧ cr.u y = .ok u ∧ q.data.lhs nu nx i u.e y.e ≠ q.b.e i

/-- along the solution of an active set, a constraint is affine in the parameter -/
theorem lhs_affine {nu nx : ℕ} (q : MpQP) (a : List ℕ) (i : ℕ) : ∃ (α : ℝ) (β : ℕ → ℝ), ∀ y : ℕ → ℝ,
    q.data.lhs nu nx i (q.fu' a nx y) y = ∑ j ∈ range nx, β j * y j + α := by
  refine ⟨∑ j ∈ range nu, q.data.Au.e i j * (q.fU0 a).e j,
    fun k => ∑ j ∈ range nu, q.data.Au.e i j * (q.fUx a).e j k + q.data.Ax.e i k, fun y => ?_⟩
  unfold Spec.ParamQP.lhs fu'
  simp only [mul_add, Finset.sum_add_distrib, add_mul, Finset.mul_sum, Finset.sum_mul]
  rw [Finset.sum_comm]
  simp only [mul_assoc]
  ring

/-- a constraint that is not always tight is strict in the interior -/
theorem strict_of_interior {nu nx : ℕ} {q : MpQP} (hm : q.Made) (hs : q.data.Shape nu nx) {a : List ℕ} (ha : ∀ i ∈ a, i < q.Au.nr)
    (hl : q.data.Licq nu a) {x : ℕ → ℝ} (hx : Interior nx (q.fCr a).polyhedron x) (hN : NoIdle nu nx q (q.fCr a)) {i : ℕ} (hi : i < q.Au.nr)
    (hia : i ∉ a) : q.data.lhs nu nx i (q.fu' a nx x) x < q.b.e i := by
  obtain ⟨ε, hε, hbox⟩ := hx
  obtain ⟨α, β, hα⟩ := lhs_affine (nu := nu) (nx := nx) q a i
  have hle : ∀ y : ℕ → ℝ, (∀ j < nx, |y j - x j| ≤ ε) → ∑ j ∈ range nx, β j * y j ≤ q.b.e i - α := fun y hy => by
    have := ((fCr_mem hm hs hl y).1 (hbox y hy)).2 i hi hia
    rw [hα] at this
    linarith
  have h1 := ((fCr_mem hm hs hl x).1 (hbox x (by simp [hε.le]))).2 i hi hia
  refine lt_of_le_of_ne h1 fun h0 => ?_
  obtain ⟨y, u, hy, hu, hne⟩ := hN i hi hia
  obtain ⟨u', hu', -, hue⟩ := fCr_u (a := a) hm hs hy
  rw [hu] at hu'
  cases hu'
  apply hne
  rw [hα] at h0
  have h2 := affine_zero hε hle (by linarith) y.e
  rw [show u.e = q.fu' a nx y.e from funext hue, hα, h2]
  ring

/-- C126, what holds: two critical regions give the same optimizer and the same value wherever they overlap, and the same multipliers if the
tight constraints are independent.  If their interiors overlap the active sets have the same elements, unless a constraint out of one of them is
tight for all parameters.  Missing with respect to C126: the latter case, for which it is false (see `C126_false`). -/
theorem C126_partial (nu nx : ℕ) (q : MpQP) (hm : q.Made) (hs : q.data.Shape nu nx) (a a' : List ℕ) (cr cr' : CritReg)
    (h : q.explicit_solve_given_active_set a = .ok (some cr)) (h' : q.explicit_solve_given_active_set a' = .ok (some cr'))
    (x : Vec ℝ) (hx : x.n = nx) :
    (cr.polyhedron.Mem x.e → cr'.polyhedron.Mem x.e → ∃ (u u' p p' : Vec ℝ) (v : ℝ), cr.u x = .ok u ∧ cr'.u x = .ok u' ∧
      cr.p x = .ok p ∧ cr'.p x = .ok p' ∧ cr.V x = .ok v ∧ cr'.V x = .ok v ∧ u.n = nu ∧ u'.n = nu ∧ p.n = q.Au.nr ∧ p'.n = q.Au.nr ∧
      (∀ j < nu, u.e j = u'.e j) ∧
      ∀ t : List ℕ, (∀ i, i ∈ t ↔ i < q.Au.nr ∧ q.data.lhs nu nx i u.e x.e = q.b.e i) → q.data.Licq nu t → ∀ i < q.Au.nr, p.e i = p'.e i) ∧
    (Interior nx cr.polyhedron x.e → Interior nx cr'.polyhedron x.e → NoIdle nu nx q cr → NoIdle nu nx q cr' → ∀ i, i ∈ a ↔ i ∈ a') := by
  obtain ⟨ha, hl, rfl⟩ := explicit_cases hm hs h
  obtain ⟨ha', hl', rfl⟩ := explicit_cases hm hs h'
  have same : (q.fCr a).polyhedron.Mem x.e → (q.fCr a').polyhedron.Mem x.e → ∀ j < nu, q.fu' a nx x.e j = q.fu' a' nx x.e j := by
    intro m m'
    have k := fCr_kkt_of_mem hm hs ha hl m
    have k' := fCr_kkt_of_mem hm hs ha' hl' m'
    obtain ⟨o1, -⟩ := opt_of_kkt hs k
    obtain ⟨o1', o2'⟩ := opt_of_kkt hs k'
    exact o2' _ o1.1 (o1.2 _ o1'.1)
  constructor
  · intro m m'
    obtain ⟨u, hu, hun, hue⟩ := fCr_u (a := a) hm hs hx
    obtain ⟨p, hp, hpn, hpe⟩ := fCr_p (a := a) hs hx
    obtain ⟨u', hu', hun', hue'⟩ := fCr_u (a := a') hm hs hx
    obtain ⟨p', hp', hpn', hpe'⟩ := fCr_p (a := a') hs hx
    have k := fCr_kkt_of_mem hm hs ha hl m
    have k' := fCr_kkt_of_mem hm hs ha' hl' m'
    have e := same m m'
    obtain ⟨o1, -⟩ := opt_of_kkt hs k
    obtain ⟨o1', -⟩ := opt_of_kkt hs k'
    have ev : q.data.cost nu nx (q.fu' a nx x.e) x.e = q.data.cost nu nx (q.fu' a' nx x.e) x.e :=
      le_antisymm (o1.2 _ o1'.1) (o1'.2 _ o1.1)
    refine ⟨u, u', p, p', _, hu, hu', hp, hp', fCr_V hm hs hx, by rw [ev]; exact fCr_V hm hs hx, hun, hun', hpn, hpn',
      fun j hj => by rw [hue, hue', e j hj], fun t ht hlt i hi => ?_⟩
    have hu_eq : u.e = q.fu' a nx x.e := funext hue
    rw [hu_eq] at ht
    have off : ∀ (w r : ℕ → ℝ), q.data.KKT nu nx w r x.e → (∀ j < nu, w j = q.fu' a nx x.e j) → ∀ i < q.Au.nr, i ∉ t → r i = 0 := by
      intro w r hk hw i hi hit
      have := hk.compl i hi
      refine (mul_eq_zero.1 this).resolve_right fun h0 => hit ((ht i).2 ⟨hi, ?_⟩)
      rw [← show q.data.lhs nu nx i w x.e = q.data.lhs nu nx i (q.fu' a nx x.e) x.e from by
        unfold Spec.ParamQP.lhs
        rw [sum_congr rfl fun j hj => by rw [hw j (mem_range.1 hj)]]]
      have : q.data.b.e i = q.b.e i := rfl
      linarith
    have tight : ∀ (w : ℕ → ℝ), (∀ j < nu, w j = q.fu' a nx x.e j) → ∀ i ∈ t, q.data.lhs nu nx i w x.e = q.b.e i := by
      intro w hw i hi
      rw [← ((ht i).1 hi).2]
      unfold Spec.ParamQP.lhs
      rw [sum_congr rfl fun j hj => by rw [hw j (mem_range.1 hj)]]
    obtain ⟨-, -, uni⟩ := fCr_kkt hm hs (a := t) (fun i hi => ((ht i).1 hi).1) hlt x.e
    have r1 := (uni _ _ k.stat (tight _ fun _ _ => rfl) (off _ _ k fun _ _ => rfl)).2 i hi
    have r2 := (uni _ _ k'.stat (tight _ fun j hj => (e j hj).symm) (off _ _ k' fun j hj => (e j hj).symm)).2 i hi
    rw [hpe, hpe', r1, r2]
  · intro I I' N N'
    have m : (q.fCr a).polyhedron.Mem x.e := by obtain ⟨ε, hε, hb⟩ := I; exact hb _ (by simp [hε.le])
    have m' : (q.fCr a').polyhedron.Mem x.e := by obtain ⟨ε, hε, hb⟩ := I'; exact hb _ (by simp [hε.le])
    have e := same m m'
    have el : ∀ i, q.data.lhs nu nx i (q.fu' a nx x.e) x.e = q.data.lhs nu nx i (q.fu' a' nx x.e) x.e := fun i => by
      unfold Spec.ParamQP.lhs
      rw [sum_congr rfl fun j hj => by rw [e j (mem_range.1 hj)]]
    intro i
    constructor
    · intro hi
      by_contra hi'
      have h1 := strict_of_interior hm hs ha' hl' I' N' (ha i hi) hi'
      rw [← el, (fCr_kkt hm hs ha hl x.e).2.1 i hi] at h1
      exact lt_irrefl _ h1
    · intro hi
      by_contra hi'
      have h1 := strict_of_interior hm hs ha hl I N (ha' i hi) hi'
      rw [el, (fCr_kkt hm hs ha' hl' x.e).2.1 i hi] at h1
      exact lt_irrefl _ h1

/-- `C126_partial` on the program `clip`: the regions of `[]` and `[0]` meet at `0`, where the tight constraint is independent, both have interior
points and neither has an idle constraint, so that no point is in both interiors -/
example : ∃ (q : MpQP) (cr cr' : CritReg), q.Made ∧ q.data.Shape 1 1 ∧ q.explicit_solve_given_active_set [] = .ok (some cr) ∧
    q.explicit_solve_given_active_set [0] = .ok (some cr') ∧ cr.polyhedron.Mem (fun _ => 0) ∧ cr'.polyhedron.Mem (fun _ => 0) ∧
    Interior 1 cr.polyhedron (fun _ => -1) ∧ Interior 1 cr'.polyhedron (fun _ => 1) ∧ NoIdle 1 1 q cr ∧ NoIdle 1 1 q cr' ∧
    q.data.Licq 1 [0] ∧ ∀ x : ℕ → ℝ, ¬ (Interior 1 cr.polyhedron x ∧ Interior 1 cr'.polyhedron x) := by
  obtain ⟨q, -, hm, hd⟩ := init_made clip_shape
  have hc : IsClip q.data := hd ▸ clip_is
  have hs := hc.shape
  have hA : q.Au.nr = 1 := hc.nr
  have hb : q.b.e 0 = 0 := hc.b
  have r0 := explicit_some hm hs (a := []) (by simp) (hc.licq _ (.inl rfl))
  have r1 := explicit_some hm hs (a := [0]) (by intro i hi; rw [hA]; simpa using hi) (hc.licq _ (.inr rfl))
  have m0 : ∀ y : ℕ → ℝ, y 0 ≤ 0 → (q.fCr []).polyhedron.Mem y := by
    intro y hy
    obtain ⟨-, -, -, -, -, -, -, h⟩ := C40 1 1 q hm hs [] _ r0 ⟨1, y⟩ rfl
    refine h.2 ⟨y, fun _ => 0, ⟨fun i hi => ?_, fun j hj => ?_, fun _ _ => le_rfl, fun _ _ => zero_mul _⟩, fun _ _ _ => rfl, by simp⟩
    · obtain rfl : i = 0 := by have : q.data.Au.nr = 1 := hc.nr; omega
      rw [hc.lhs]; exact hy.trans_eq hc.b.symm
    · obtain rfl : j = 0 := by omega
      rw [hc.lag]; ring
  have m1 : ∀ y : ℕ → ℝ, 0 ≤ y 0 → (q.fCr [0]).polyhedron.Mem y := by
    intro y hy
    obtain ⟨-, -, -, -, -, -, -, h⟩ := C40 1 1 q hm hs [0] _ r1 ⟨1, y⟩ rfl
    refine h.2 ⟨fun _ => 0, fun _ => 100 * y 0, ⟨fun i hi => ?_, fun j hj => ?_, fun _ _ => by positivity, fun i hi => ?_⟩, fun i hi hn => ?_,
      fun i hi => ?_⟩
    · obtain rfl : i = 0 := by have : q.data.Au.nr = 1 := hc.nr; omega
      rw [hc.lhs, hc.b]
    · obtain rfl : j = 0 := by omega
      rw [hc.lag]; ring
    · obtain rfl : i = 0 := by have : q.data.Au.nr = 1 := hc.nr; omega
      rw [hc.lhs, hc.b]; ring
    · simp at hn; omega
    · obtain rfl : i = 0 := by simpa using hi
      rw [hc.lhs, hb]
  have N0 : NoIdle 1 1 q (q.fCr []) := by
    intro i hi _
    obtain rfl : i = 0 := by omega
    obtain ⟨u, p, hu, -, -, -, h, -⟩ := C40 1 1 q hm hs [] _ r0 ⟨1, fun _ => -1⟩ rfl
    refine ⟨_, u, rfl, hu, ?_⟩
    rw [hc.lhs, hb]
    intro h0
    have k := (h (m0 _ (by norm_num))).1
    have k1 := k.stat 0 (by norm_num)
    have k2 := k.nonneg 0 (by rw [show q.data.Au.nr = 1 from hc.nr]; norm_num)
    rw [hc.lag, h0] at k1
    simp at k1
    linarith
  have N1 : NoIdle 1 1 q (q.fCr [0]) := by
    intro i hi hn
    have : i ∉ [0] := hn
    simp at this
    omega
  refine ⟨q, _, _, hm, hs, r0, r1, m0 _ le_rfl, m1 _ le_rfl, ⟨1, one_pos, fun y hy => m0 y ?_⟩, ⟨1, one_pos, fun y hy => m1 y ?_⟩, N0, N1,
    hc.licq _ (.inr rfl), fun x ⟨I, I'⟩ => ?_⟩
  · have := abs_le.1 (hy 0 (by norm_num)); linarith
  · have := abs_le.1 (hy 0 (by norm_num)); linarith
  · have := ((C126_partial 1 1 q hm hs [] [0] _ _ r0 r1 ⟨1, x⟩ rfl).2 I I' N0 N1 0).2 (by simp)
    simp at this

/-- min 1/2 u² - x u s.t. u ≤ 0 twice -/
def twice : Spec.ParamQP := ⟨⟨1, 1, fun _ _ => 1⟩, ⟨1, 1, fun _ _ => -1⟩, ⟨1, 1, fun _ _ => 1⟩,
  ⟨1, fun _ => 0⟩, ⟨1, fun _ => 0⟩, 0, ⟨2, 1, fun _ _ => 1⟩, ⟨2, 1, fun _ _ => 0⟩, ⟨2, fun _ => 0⟩⟩

theorem twice_shape : twice.Shape 1 1 := by
  refine ⟨⟨rfl, rfl, fun _ _ _ _ => rfl, ?_⟩, rfl, rfl, rfl, rfl, rfl, rfl, rfl, rfl, rfl, rfl⟩
  rintro x ⟨i, hi, hx⟩
  have : i = 0 := by omega
  subst this
  have := mul_self_pos.2 hx
  simp [twice]
  nlinarith

theorem twice_licq (k : ℕ) : twice.Licq 1 [k] := by
  intro w hw j hj
  have := hw 0 (by norm_num)
  simp [twice] at this
  have hj0 : j = 0 := by simpa using hj
  rw [hj0, this]

/-- the region of each of the two constraints is `x ≥ 0` -/
theorem twice_region {q : MpQP} (hm : q.Made) (hd : q.data = twice) {k k' : ℕ} (hk : k < 2) (hk' : k' < 2) (hne : k ≠ k') :
    ∃ cr, q.explicit_solve_given_active_set [k] = .ok (some cr) ∧ ∀ y : ℕ → ℝ, 0 ≤ y 0 → cr.polyhedron.Mem y := by
  have hs : q.data.Shape 1 1 := by rw [hd]; exact twice_shape
  have hA : q.Au.nr = 2 := congrArg (fun P : Spec.ParamQP => P.Au.nr) hd
  have hb : ∀ i, q.b.e i = 0 := fun i => congrArg (fun P : Spec.ParamQP => P.b.e i) hd
  have hrun := explicit_some hm hs (a := [k]) (by intro i hi; rw [hA]; simp at hi; omega) (by rw [hd]; exact twice_licq k)
  refine ⟨_, hrun, fun y hy => ?_⟩
  obtain ⟨-, -, -, -, -, -, -, h⟩ := C40 1 1 q hm hs [k] _ hrun ⟨1, y⟩ rfl
  refine h.2 ⟨fun _ => 0, fun i => if i = k then y 0 else 0, ?_, ?_, ?_⟩
  · rw [hd]
    refine ⟨fun i _ => by simp [Spec.ParamQP.lhs, twice], fun j _ => ?_, fun i _ => ?_, fun i _ => by simp [Spec.ParamQP.lhs, twice]⟩
    · have : k = 0 ∧ k' = 1 ∨ k = 1 ∧ k' = 0 := by omega
      rcases this with ⟨rfl, rfl⟩ | ⟨rfl, rfl⟩ <;> simp [Spec.ParamQP.lagrangian, twice, Finset.sum_range_succ]
    · show 0 ≤ if i = k then y 0 else 0
      split_ifs
      · exact hy
      · exact le_rfl
  · intro i _ hi
    have : i ≠ k := by simpa using hi
    exact if_neg this
  · intro i _
    rw [hd, hb]
    simp [Spec.ParamQP.lhs, twice]

/-- C126 is false of the code: the regions of the active sets `[0]` and `[1]` of a program with a repeated constraint both contain all `x ≥ 0`. -/
theorem C126_false : ∃ (q : MpQP) (cr cr' : CritReg), q.Made ∧ q.data.Shape 1 1 ∧ q.explicit_solve_given_active_set [0] = .ok (some cr) ∧
    q.explicit_solve_given_active_set [1] = .ok (some cr') ∧ Interior 1 cr.polyhedron (fun _ => 1) ∧ Interior 1 cr'.polyhedron (fun _ => 1) := by
  obtain ⟨q, -, hm, hd⟩ := init_made twice_shape
  have hs : q.data.Shape 1 1 := by rw [hd]; exact twice_shape
  obtain ⟨cr, h1, h2⟩ := twice_region hm hd (k := 0) (k' := 1) (by norm_num) (by norm_num) (by norm_num)
  obtain ⟨cr', h1', h2'⟩ := twice_region hm hd (k := 1) (k' := 0) (by norm_num) (by norm_num) (by norm_num)
  refine ⟨q, cr, cr', hm, hs, h1, h1', ⟨1, one_pos, fun y hy => h2 y ?_⟩, ⟨1, one_pos, fun y hy => h2' y ?_⟩⟩
  · have := abs_le.1 (hy 0 (by norm_num)); linarith
  · have := abs_le.1 (hy 0 (by norm_num)); linarith

end Verif.Props
